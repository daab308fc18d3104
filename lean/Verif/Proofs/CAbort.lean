import Verif.Spec.CAbort
import Verif.Proofs.CSession
/-! # The C interface: when a call aborts -/

namespace TsFile.CApi
open Spec

/-- The address that a constructor returned. -/
def born : CCall × Outcome → Option Addr
  | (.newString _, .ok r) => some r
  | (.schemaSimple .., .ok r) => some r
  | (.fileWriterNew .., .ok r) => some r
  | _ => none

/-- Every address is returned by one constructor only. -/
structure Once (st : State) (H : List (CCall × Outcome)) : Prop where
  lt : ∀ x ∈ H, ∀ r, born x = some r → r < st.next
  inj : ∀ x ∈ H, ∀ y ∈ H, ∀ r, born x = some r → born y = some r → x = y

theorem once_start : Once start [] := ⟨fun _ h => (List.not_mem_nil h).elim, fun _ h => (List.not_mem_nil h).elim⟩

variable {ce : CEnv} {st st' : State} {H : List (CCall × Outcome)} {h : Holds}

theorem Once.idle (o : Once st H) (x : CCall × Outcome) (hx : born x = none) (hn : st'.next = st.next) : Once st' (H ++ [x]) := by
  constructor
  · intro y hy r hr
    rcases List.mem_append.1 hy with hy | hy
    · rw [hn]; exact o.lt y hy r hr
    · rw [List.mem_singleton.1 hy, hx] at hr; cases hr
  · intro y hy z hz r hr hr'
    rcases List.mem_append.1 hy with hy | hy
    · rcases List.mem_append.1 hz with hz | hz
      · exact o.inj y hy z hz r hr hr'
      · rw [List.mem_singleton.1 hz, hx] at hr'; cases hr'
    · rw [List.mem_singleton.1 hy, hx] at hr; cases hr

theorem Once.add (o : Once st H) (x : CCall × Outcome) (hx : born x = some st.next) (hn : st'.next = st.next + 1) :
    Once st' (H ++ [x]) := by
  constructor
  · intro y hy r hr
    rw [hn]
    rcases List.mem_append.1 hy with hy | hy
    · exact Nat.lt_succ_of_lt (o.lt y hy r hr)
    · rw [List.mem_singleton.1 hy, hx] at hr
      rw [← Option.some.inj hr]; exact Nat.lt_succ_self _
  · intro y hy z hz r hr hr'
    rcases List.mem_append.1 hy with hy | hy
    · rcases List.mem_append.1 hz with hz | hz
      · exact o.inj y hy z hz r hr hr'
      · rw [List.mem_singleton.1 hz, hx] at hr'
        rw [← Option.some.inj hr'] at hr
        exact absurd (o.lt y hy _ hr) (Nat.lt_irrefl _)
    · rcases List.mem_append.1 hz with hz | hz
      · rw [List.mem_singleton.1 hy, hx] at hr
        rw [← Option.some.inj hr] at hr'
        exact absurd (o.lt z hz _ hr') (Nat.lt_irrefl _)
      · rw [List.mem_singleton.1 hy, List.mem_singleton.1 hz]

theorem once_step (o : Once st H) (c : CCall) : Once (step ce st c).2 (H ++ [(c, (step ce st c).1)]) := by
  have bad : ∀ (c : CCall) (r : Outcome), (∀ p, r ≠ .ok p) → born (c, r) = none := by
    intro c r hr
    cases r with
    | ok p => exact absurd rfl (hr p)
    | abort => cases c <;> rfl
    | ub => cases c <;> rfl
  have cerr : ∀ p e, cstr st p = .error e → ∀ q, e ≠ .ok q := by
    intro p e he q
    unfold cstr at he
    by_cases h0 : p = 0
    · rw [if_pos h0] at he; cases he; exact fun h => by cases h
    · rw [if_neg h0] at he
      cases hf : find p st.strings with
      | none => rw [hf] at he; cases he; exact fun h => by cases h
      | some x => rw [hf] at he; cases he
  cases c with
  | newString s => exact o.add _ rfl rfl
  | freeString p =>
    rw [step]
    cases find p st.strings with
    | none => exact o.idle _ rfl rfl
    | some s => exact o.idle _ rfl rfl
  | schemaFree s =>
    rw [step, schemaFree]
    split
    · exact o.idle _ rfl rfl
    · split <;> exact o.idle _ rfl rfl
  | fileWriterClose w =>
    rw [step, fileWriterClose]
    split
    · exact o.idle _ rfl rfl
    · split
      · exact o.idle _ rfl rfl
      · split
        · split <;> exact o.idle _ rfl rfl
        · exact o.idle _ rfl rfl
  | fileWriterWriteInt32 w d m t v =>
    have hb : ∀ r, born (CCall.fileWriterWriteInt32 w d m t v, r) = none := fun r => by cases r <;> rfl
    rw [step, fileWriterWriteInt32]
    split
    · exact o.idle _ (hb _) rfl
    · split
      · exact o.idle _ (hb _) rfl
      · split
        · exact o.idle _ (hb _) rfl
        · split
          · exact o.idle _ (hb _) rfl
          · split
            · split
              · split <;> exact o.idle _ (hb _) rfl
              · exact o.idle _ (hb _) rfl
            · exact o.idle _ (hb _) rfl
  | schemaSimple d m x y z =>
    rw [step, schemaSimple]
    split
    · next e he => exact o.idle _ (bad _ _ (cerr _ _ he)) rfl
    · split
      · next e he => exact o.idle _ (bad _ _ (cerr _ _ he)) rfl
      · split
        · split
          · exact o.add _ rfl rfl
          · exact o.idle _ rfl rfl
        · exact o.idle _ rfl rfl
  | fileWriterNew f s =>
    rw [step, fileWriterNew]
    split
    · next e he => exact o.idle _ (bad _ _ (cerr _ _ he)) rfl
    · split
      · exact o.idle _ rfl rfl
      · split
        · split
          · split
            · exact o.idle _ rfl rfl
            · exact o.add _ rfl rfl
          · exact o.idle _ rfl rfl
        · exact o.idle _ rfl rfl

theorem Once.string (o : Once st H) {p : Addr} {s s' : Bytes} (h1 : (.newString s, .ok p) ∈ H) (h2 : (.newString s', .ok p) ∈ H) :
    s = s' := by
  have := o.inj _ h1 _ h2 p rfl rfl
  simp only [Prod.mk.injEq, CCall.newString.injEq] at this
  exact this.1

theorem Once.schema (o : Once st H) {p : Addr} {d m d' m' : Bytes} {ms ms' : MeasurementSchema} (h1 : SchemaIs H p d m ms)
    (h2 : SchemaIs H p d' m' ms') : d = d' ∧ m = m' ∧ ms = ms' := by
  obtain ⟨da, ma, x, y, z, a1, a2, a3, a4, a5, a6⟩ := h1
  obtain ⟨da', ma', x', y', z', b1, b2, b3, b4, b5, b6⟩ := h2
  have := o.inj _ a3 _ b3 p rfl rfl
  simp only [Prod.mk.injEq, CCall.schemaSimple.injEq, and_true] at this
  obtain ⟨rfl, rfl, rfl, rfl, rfl⟩ := this
  refine ⟨o.string a1 b1, o.string a2 b2, ?_⟩
  rw [a4] at b4; rw [a5] at b5; rw [a6] at b6
  cases ms; cases ms'
  cases b4; cases b5; cases b6
  rfl

theorem OpenedAs.split {p : Addr} {f d m : Bytes} {ms : MeasurementSchema} (h1 : OpenedAs H p f d m ms) :
    ∃ fa sa, (.fileWriterNew fa sa, .ok p) ∈ H ∧ (.newString f, .ok fa) ∈ H ∧ SchemaIs H sa d m ms := by
  obtain ⟨fa, sa, da, ma, x, y, z, a1, a2, a3, a4, a5, a6⟩ := h1
  exact ⟨fa, sa, a5, a1, da, ma, x, y, z, a2, a3, a4, a6⟩

theorem Once.opened (o : Once st H) {p : Addr} {f f' d m d' m' : Bytes} {ms ms' : MeasurementSchema} (h1 : OpenedAs H p f d m ms)
    (h2 : OpenedAs H p f' d' m' ms') : f = f' ∧ d = d' ∧ m = m' ∧ ms = ms' := by
  obtain ⟨fa, sa, a1, a2, a3⟩ := OpenedAs.split h1
  obtain ⟨fa', sa', b1, b2, b3⟩ := OpenedAs.split h2
  have := o.inj _ a1 _ b1 p rfl rfl
  simp only [Prod.mk.injEq, CCall.fileWriterNew.injEq, and_true] at this
  obtain ⟨rfl, rfl⟩ := this
  exact ⟨o.string a2 b2, o.schema a3 b3⟩

/-- A string argument: null, or known and either UTF-8 or not. -/
theorem string_cases (sim : Sim st h) (inv : Inv ce st H) (o : Once st H) {p : Addr} (hp : p = 0 ∨ p ∈ h.strings) :
    (cstr st p = .error .abort ∧ BadString ce H p)
    ∨ ∃ s, cstr st p = .ok s ∧ (.newString s, .ok p) ∈ H ∧ p ≠ 0 ∧ (BadString ce H p ↔ ce.utf8 s = false) := by
  by_cases h0 : p = 0
  · left
    refine ⟨?_, Or.inl h0⟩
    unfold cstr; rw [if_pos h0]
  · right
    rcases sim.cstr hp with hc | ⟨hm, s, hs⟩
    · unfold cstr at hc
      rw [if_neg h0] at hc
      cases hf : find p st.strings with
      | none => rw [hf] at hc; cases hc
      | some x => rw [hf] at hc; cases hc
    · have hmem := (inv.str p s (cstr_ok hs).2).1
      refine ⟨s, hs, hmem, h0, ?_⟩
      constructor
      · rintro (hb | ⟨s', h1, h2⟩)
        · exact absurd hb h0
        · rw [o.string hmem h1]; exact h2
      · exact fun hb => Or.inr ⟨s, hmem, hb⟩

theorem session_none {env : Env} {schema : Schema} {ops : List Op} {w0 : Writer}
    (h0 : Writer.new env schema { bytes := [], cap := none } = .ok w0) (h1 : ∀ r ∈ (w0.run env ops).2, r = .ok ()) :
    session env schema ops = none ↔ (w0.run env ops).1.close env = none := by
  unfold session
  rw [h0]
  dsimp only
  rw [if_neg (fun h => by have := h1 _ h; cases this)]
  cases (w0.run env ops).1.close env with
  | none => exact ⟨fun _ => rfl, fun _ => rfl⟩
  | some w => exact ⟨fun h => (by cases h), fun h => (by cases h)⟩

/-- One call: it aborts exactly for a stated reason. -/
theorem step_abort (sim : Sim st h) (inv : Inv ce st H) (o : Once st H) (c : CCall) (hr : h.Allows c) :
    (step ce st c).1 = .abort ↔ AbortReason ce H c := by
  have T : ∀ {P : Prop}, P → (Outcome.abort = Outcome.abort ↔ P) := fun hp => ⟨fun _ => hp, fun _ => rfl⟩
  have F : ∀ {P : Prop} (r : Addr), ¬ P → (Outcome.ok r = Outcome.abort ↔ P) := fun r hp => ⟨fun h => (by cases h), fun h => absurd h hp⟩
  cases c with
  | newString s => exact F _ id
  | freeString p =>
    obtain ⟨s, hs⟩ := sim.find_string hr.1
    rw [step, hs]
    exact F _ id
  | schemaFree s =>
    rw [step, schemaFree]
    by_cases h0 : s = 0
    · rw [if_pos h0]; exact F _ id
    · rw [if_neg h0]
      rcases hr with hr | hr
      · exact absurd hr h0
      · obtain ⟨b, hb⟩ := find_of_mem (l := st.schemas) (p := s) (by rw [sim.schemas]; exact hr)
        rw [hb]; exact F _ id
  | schemaSimple d m x y z =>
    rw [step, schemaSimple]
    rcases string_cases sim inv o hr.1 with ⟨hd, hbad⟩ | ⟨sd, hd, -, -, hdu⟩
    · rw [hd]; exact T (Or.inl hbad)
    rw [hd]; dsimp only
    rcases string_cases sim inv o hr.2 with ⟨hm, hbad⟩ | ⟨sm, hm, -, -, hmu⟩
    · rw [hm]; exact T (Or.inr (Or.inl hbad))
    rw [hm]; dsimp only
    show _ ↔ (_ ∨ _ ∨ _)
    rw [hdu, hmu]
    cases hu1 : ce.utf8 sd with
    | false => exact T (Or.inl rfl)
    | true =>
      cases hu2 : ce.utf8 sm with
      | false => exact T (Or.inr (Or.inl rfl))
      | true =>
        cases TSDataType.tryFrom x with
        | none => exact T (Or.inr (Or.inr (Or.inl rfl)))
        | some dt =>
          cases TSEncoding.tryFrom y with
          | none => exact T (Or.inr (Or.inr (Or.inr (Or.inl rfl))))
          | some e =>
            cases CompressionType.tryFrom z with
            | none => exact T (Or.inr (Or.inr (Or.inr (Or.inr rfl))))
            | some c =>
              refine F _ ?_
              rintro (h | h | h | h | h) <;> cases h
  | fileWriterNew f s =>
    rw [step, fileWriterNew]
    rcases string_cases sim inv o hr.1 with ⟨hd, hbad⟩ | ⟨sf, hf, hmem, -, hfu⟩
    · rw [hd]; exact T (Or.inl hbad)
    rw [hf]; dsimp only
    obtain ⟨b, hb⟩ := find_of_mem (l := st.schemas) (p := s) (by rw [sim.schemas]; exact hr.2)
    rw [hb]
    have hk := sim.keptC s b hb
    obtain ⟨d, hd⟩ := sim.find_string (sim.need _ (Or.inl (mem_passed hk.1)))
    obtain ⟨m, hm⟩ := sim.find_string (sim.need _ (Or.inl (mem_passed hk.2)))
    dsimp only
    rw [hd, hm]
    dsimp only
    have hsch : SchemaIs H s d m ⟨b.dataType, b.encoding, b.compression⟩ := by
      obtain ⟨x, y, z, h1, h2, h3, h4⟩ := inv.sch s b hb
      exact ⟨_, _, x, y, z, (inv.str _ _ hd).1, (inv.str _ _ hm).1, h1, h2, h3, h4⟩
    show _ ↔ (_ ∨ _ ∨ _)
    rw [hfu]
    cases hu1 : ce.utf8 sf with
    | false => exact T (Or.inl rfl)
    | true =>
      cases hu2 : ce.canCreate sf with
      | false => exact T (Or.inr (Or.inl ⟨sf, hmem, hu2⟩))
      | true =>
        rw [if_pos (by rfl)]
        cases hw : Writer.new ce.env (Schema.simple d m b.dataType b.encoding b.compression) { bytes := [], cap := none } with
        | error e => exact T (Or.inr (Or.inr ⟨d, m, _, e, hsch, hw⟩))
        | ok w =>
          refine F _ ?_
          rintro (h | ⟨s', h1, h2⟩ | ⟨d', m', ms, e, h1, h2⟩)
          · cases h
          · rw [← o.string hmem h1, hu2] at h2; cases h2
          · obtain ⟨rfl, rfl, rfl⟩ := o.schema hsch h1
            have hw' : Writer.new ce.env [(d, [(m, ⟨b.dataType, b.encoding, b.compression⟩)])] { bytes := [], cap := none } = .ok w := hw
            rw [hw'] at h2; cases h2
  | fileWriterWriteInt32 w da ma t v =>
    rw [step, fileWriterWriteInt32]
    by_cases h0 : w = 0
    · rw [if_pos h0]; exact T (Or.inl h0)
    rw [if_neg h0]
    rcases string_cases sim inv o hr.2.1 with ⟨hd, hbad⟩ | ⟨sd, hd, hdm, -, hdu⟩
    · rw [hd]; exact T (Or.inr (Or.inl hbad))
    rw [hd]; dsimp only
    rcases string_cases sim inv o hr.2.2 with ⟨hm, hbad⟩ | ⟨sm, hm, hmm, -, hmu⟩
    · rw [hm]; exact T (Or.inr (Or.inr (Or.inl hbad)))
    rw [hm]; dsimp only
    have hw : w ∈ h.writers.map Prod.fst := hr.1.resolve_left h0
    obtain ⟨b, hb⟩ := find_of_mem (l := st.writers) (p := w) (by rw [sim.writers]; exact hw)
    rw [hb]; dsimp only
    show _ ↔ (_ ∨ _ ∨ _ ∨ _)
    rw [hdu, hmu]
    cases hu1 : ce.utf8 sd with
    | false => exact T (Or.inr (Or.inl rfl))
    | true =>
      cases hu2 : ce.utf8 sm with
      | false => exact T (Or.inr (Or.inr (Or.inl rfl)))
      | true =>
        rw [if_pos (by rfl), if_pos (sim.borrowed hb)]
        obtain ⟨-, d, m, ms, w0, h1, h2, h3, h4⟩ := inv.wr w b hb
        rcases hwr : b.writer.write ce.env sd sm t (.INT v) with ⟨w', res⟩
        have good : res ≠ .ok () → ∃ f d m ms writer d' m', OpenedAs H w f d m ms
            ∧ RustWriter ce.env [(d, [(m, ms)])] (writesTo w [] H) writer
            ∧ (.newString d', .ok da) ∈ H ∧ (.newString m', .ok ma) ∈ H ∧ (writer.write ce.env d' m' t (.INT v)).2 ≠ .ok () :=
          fun hres => ⟨_, d, m, ms, b.writer, sd, sm, h1, ⟨w0, h2, h3.symm⟩, hdm, hmm, by rw [hwr]; exact hres⟩
        cases res with
        | ok u =>
          refine F _ ?_
          rintro (h | h | h | ⟨f', d', m', ms', wr, d'', m'', a1, ⟨w0', a2, a3⟩, a4, a5, a6⟩)
          · exact h0 h
          · cases h
          · cases h
          · obtain ⟨rfl, rfl, rfl, rfl⟩ := o.opened h1 a1
            rw [h2] at a2
            obtain rfl := Except.ok.inj a2
            rw [h3] at a3
            subst a3
            rw [← o.string hdm a4, ← o.string hmm a5, hwr] at a6
            exact a6 rfl
        | _ => exact T (Or.inr (Or.inr (Or.inr (good (fun h => by cases h)))))
  | fileWriterClose w =>
    rw [step, fileWriterClose]
    by_cases h0 : w = 0
    · rw [if_pos h0]; exact F _ (fun h => h.1 h0)
    rw [if_neg h0]
    have hw : w ∈ h.writers.map Prod.fst := hr.resolve_left h0
    obtain ⟨b, hb⟩ := find_of_mem (l := st.writers) (p := w) (by rw [sim.writers]; exact hw)
    rw [hb]; dsimp only
    rw [if_pos (sim.borrowed hb)]
    obtain ⟨-, d, m, ms, w0, h1, h2, h3, h4⟩ := inv.wr w b hb
    have key := session_none h2 h4
    rw [h3] at key
    cases hcl : b.writer.close ce.env with
    | none => exact T ⟨h0, _, d, m, ms, h1, key.2 hcl⟩
    | some w' =>
      refine F _ ?_
      rintro ⟨-, f', d', m', ms', a1, a2⟩
      obtain ⟨rfl, rfl, rfl, rfl⟩ := o.opened h1 a1
      rw [key.1 a2] at hcl; cases hcl

/-- A whole program: each call aborts exactly for a stated reason. -/
theorem run_abort (ce : CEnv) (cs : List CCall) : ∀ (st : State) (h : Holds) (H : List (CCall × Outcome)), Sim st h → Inv ce st H →
    Once st H → Obeys h cs (run ce st cs).1 → ∀ (k : Nat) (c : CCall) (x : Outcome), cs[k]? = some c →
    (run ce st cs).1[k]? = some x → (x = .abort ↔ AbortReason ce (H ++ (cs.zip (run ce st cs).1).take k) c) := by
  induction cs with
  | nil => intro st h H _ _ _ _ k c x hc; cases hc
  | cons c0 cs ih =>
    intro st h H sim inv once ho k c x hc hx
    have hal : h.Allows c0 := by
      revert ho
      cases (run ce st (c0 :: cs)).1 with
      | nil => exact id
      | cons o os => cases o with
        | ok r => exact And.left
        | abort => exact id
        | ub => exact id
    have h1 := step_abort sim inv once c0 hal
    have h2 := inv_step inv c0
    have h3 := once_step (ce := ce) once c0
    cases k with
    | zero =>
      obtain rfl := Option.some.inj (hc : some c0 = some c)
      rw [List.take_zero, List.append_nil, ← h1]
      have : x = (step ce st c0).1 := by
        rw [run] at hx
        rcases hs : step ce st c0 with ⟨o, st'⟩
        rw [hs] at hx
        cases o <;> exact (Option.some.inj hx).symm
      rw [this]
    | succ k =>
      rcases good (ce := ce) sim c0 hal with hg | ⟨r, st', hg, hret, sim'⟩
      · rw [run, hg] at hx; cases hx
      · rw [run, hg] at ho hx ⊢
        rw [hg] at h2 h3
        dsimp only
        rw [List.zip_cons_cons, List.take_succ_cons, ← List.singleton_append, ← List.append_assoc]
        exact ih st' _ _ sim' h2 h3 ho.2 k c x hc hx

end TsFile.CApi
