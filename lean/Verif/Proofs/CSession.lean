import Verif.Proofs.CApi
import Verif.Model.Session
/-! # The C interface: every file is that of a session -/

namespace TsFile.CApi
open Spec

/-- The strings made in a history. -/
def made : List (Addr × Bytes) → List (CCall × Outcome) → List (Addr × Bytes)
  | texts, [] => texts
  | texts, (.newString s, .ok r) :: h => made ((r, s) :: texts) h
  | texts, _ :: h => made texts h

theorem made_append (H : List (CCall × Outcome)) (x : CCall × Outcome) :
    ∀ texts, made texts (H ++ [x]) = made (made texts H) [x] := by
  induction H with
  | nil => intro texts; rfl
  | cons y H ih =>
    intro texts
    rcases y with ⟨c, o⟩
    cases c <;> cases o <;> exact ih _

theorem writesTo_append (p : Addr) (H : List (CCall × Outcome)) (x : CCall × Outcome) :
    ∀ texts, writesTo p texts (H ++ [x]) = writesTo p texts H ++ writesTo p (made texts H) [x] := by
  induction H with
  | nil => intro texts; rfl
  | cons y H ih =>
    intro texts
    rcases y with ⟨c, o⟩
    cases c with
    | fileWriterWriteInt32 w d m t v =>
      cases o with
      | ok r =>
        simp only [List.cons_append, writesTo, made]
        by_cases h : w = p
        · rw [if_pos h, if_pos h, ih]; rfl
        · rw [if_neg h, if_neg h, ih]
      | _ => exact ih _
    | _ => cases o <;> exact ih _

theorem run_snoc (env : Env) (ops : List Op) (op : Op) : ∀ (w : Writer),
    w.run env (ops ++ [op]) = (((w.run env ops).1.step env op).1, (w.run env ops).2 ++ [((w.run env ops).1.step env op).2]) := by
  induction ops with
  | nil => intro w; rfl
  | cons o ops ih =>
    intro w
    rw [List.cons_append, Writer.run, Writer.run, ih]
    rfl

theorem OpenedAs.mono {H : List (CCall × Outcome)} {p : Addr} {f d m : Bytes} {ms : MeasurementSchema}
    (h : OpenedAs H p f d m ms) (x : CCall × Outcome) : OpenedAs (H ++ [x]) p f d m ms := by
  obtain ⟨fa, sa, da, ma, x, y, z, h1, h2, h3, h4, h5, h6⟩ := h
  exact ⟨fa, sa, da, ma, x, y, z, List.mem_append_left _ h1, List.mem_append_left _ h2, List.mem_append_left _ h3,
    List.mem_append_left _ h4, List.mem_append_left _ h5, h6⟩

/-- The writer behind an open handle is that of a session. -/
def Running (ce : CEnv) (H : List (CCall × Outcome)) (p : Addr) (b : WriterBox) : Prop :=
  ∃ d m ms w0, OpenedAs H p b.filename d m ms
    ∧ Writer.new ce.env [(d, [(m, ms)])] { bytes := [], cap := none } = .ok w0
    ∧ (w0.run ce.env (writesTo p [] H)).1 = b.writer ∧ ∀ r ∈ (w0.run ce.env (writesTo p [] H)).2, r = .ok ()

/-- The file of a closed handle is that of a session. -/
def Done (ce : CEnv) (files : List (Bytes × Bytes)) (H : List (CCall × Outcome)) (p : Addr) : Prop :=
  ∃ f d m ms s, OpenedAs H p f d m ms
    ∧ session ce.env [(d, [(m, ms)])] (writesTo p [] H) = some s ∧ (∀ r ∈ s.results, r = .ok ()) ∧ (f, s.file) ∈ files

/-- The invariant. -/
structure Inv (ce : CEnv) (st : State) (H : List (CCall × Outcome)) : Prop where
  str : ∀ p s, find p st.strings = some s → (.newString s, .ok p) ∈ H ∧ text p (made [] H) = s ∧ p < st.next
  sch : ∀ p s, find p st.schemas = some s → ∃ x y z, (.schemaSimple s.device s.measurement x y z, .ok p) ∈ H
    ∧ TSDataType.tryFrom x = some s.dataType ∧ TSEncoding.tryFrom y = some s.encoding
    ∧ CompressionType.tryFrom z = some s.compression
  wr : ∀ p b, find p st.writers = some b → p < st.next ∧ Running ce H p b
  unused : ∀ p, st.next ≤ p → writesTo p [] H = []
  closed : ∀ p r, p ≠ 0 → (.fileWriterClose p, .ok r) ∈ H → p < st.next ∧ find p st.writers = none ∧ Done ce st.files H p

theorem inv_start (ce : CEnv) : Inv ce start [] := by
  refine ⟨?_, ?_, ?_, fun _ _ => rfl, ?_⟩
  · intro p s h; cases h
  · intro p s h; cases h
  · intro p s h; cases h
  · intro p r _ h; cases h

variable {ce : CEnv} {st : State} {H : List (CCall × Outcome)}

/-- A new entry of the history that writes nothing through `p`. -/
theorem Running.mono {p : Addr} {b : WriterBox} (h : Running ce H p b) (x : CCall × Outcome)
    (hx : writesTo p (made [] H) [x] = []) : Running ce (H ++ [x]) p b := by
  obtain ⟨d, m, ms, w0, h1, h2, h3, h4⟩ := h
  refine ⟨d, m, ms, w0, OpenedAs.mono h1 x, h2, ?_, ?_⟩ <;> rw [writesTo_append, hx, List.append_nil]
  · exact h3
  · exact h4

theorem Done.mono {p : Addr} {fs fs' : List (Bytes × Bytes)} (h : Done ce fs H p) (x : CCall × Outcome)
    (hx : writesTo p (made [] H) [x] = []) (hf : ∀ f ∈ fs, f ∈ fs') : Done ce fs' (H ++ [x]) p := by
  obtain ⟨f, d, m, ms, s, h1, h2, h3, h4⟩ := h
  refine ⟨f, d, m, ms, s, OpenedAs.mono h1 x, ?_, h3, hf _ h4⟩
  rw [writesTo_append, hx, List.append_nil]
  exact h2

/-- An entry that changes nothing but, perhaps, takes away strings and schemas. -/
theorem Inv.idle (inv : Inv ce st H) (x : CCall × Outcome) (st' : State)
    (hn : st'.next = st.next) (hs : ∀ p s, find p st'.strings = some s → find p st.strings = some s)
    (hc : ∀ p s, find p st'.schemas = some s → find p st.schemas = some s) (hw : st'.writers = st.writers)
    (hf : st'.files = st.files) (hx : ∀ p, writesTo p (made [] H) [x] = []) (hm : made (made [] H) [x] = made [] H)
    (hcl : ∀ p r, x = (.fileWriterClose p, .ok r) → p = 0) : Inv ce st' (H ++ [x]) := by
  refine ⟨?_, ?_, ?_, ?_, ?_⟩
  · intro p s hp
    obtain ⟨h1, h2, h3⟩ := inv.str p s (hs p s hp)
    refine ⟨List.mem_append_left _ h1, ?_, by rw [hn]; exact h3⟩
    rw [made_append, hm]; exact h2
  · intro p s hp
    obtain ⟨a, b, c, h1, h2⟩ := inv.sch p s (hc p s hp)
    exact ⟨a, b, c, List.mem_append_left _ h1, h2⟩
  · intro p b hb
    rw [hw] at hb
    obtain ⟨h1, h2⟩ := inv.wr p b hb
    exact ⟨by rw [hn]; exact h1, h2.mono x (hx p)⟩
  · intro p hp
    rw [hn] at hp
    rw [writesTo_append, inv.unused p hp, hx p, List.nil_append]
  · intro p r hp hmem
    rcases List.mem_append.1 hmem with hmem | hmem
    · obtain ⟨h1, h2, h3⟩ := inv.closed p r hp hmem
      exact ⟨by rw [hn]; exact h1, by rw [hw]; exact h2, h3.mono x (hx p) (by rw [hf]; exact fun f hf => hf)⟩
    · exact absurd (hcl p r (List.mem_singleton.1 hmem).symm) hp

theorem cstr_ok {p : Addr} {s : Bytes} (h : cstr st p = .ok s) : p ≠ 0 ∧ find p st.strings = some s := by
  unfold cstr at h
  by_cases h0 : p = 0
  · rw [if_pos h0] at h; cases h
  · rw [if_neg h0] at h
    refine ⟨h0, ?_⟩
    cases hf : find p st.strings with
    | none => rw [hf] at h; cases h
    | some x => rw [hf] at h; cases h; rfl

theorem step_newString (inv : Inv ce st H) (s : Bytes) :
    Inv ce { st with strings := (st.next, s) :: st.strings, next := st.next + 1 } (H ++ [(.newString s, .ok st.next)]) := by
  have hx : ∀ p, writesTo p (made [] H) [(CCall.newString s, Outcome.ok st.next)] = [] := fun _ => rfl
  refine ⟨?_, ?_, ?_, ?_, ?_⟩
  · intro p s' hp
    simp only [find_cons] at hp
    rw [made_append]
    show _ ∧ text p ((st.next, s) :: made [] H) = s' ∧ _
    rw [text]
    by_cases h : st.next = p
    · rw [if_pos h] at hp
      obtain rfl := Option.some.inj hp
      subst h
      refine ⟨List.mem_append_right _ (List.mem_singleton.2 rfl), ?_, Nat.lt_succ_self _⟩
      rw [if_pos rfl]
    · rw [if_neg h] at hp
      obtain ⟨h1, h2, h3⟩ := inv.str p s' hp
      refine ⟨List.mem_append_left _ h1, ?_, Nat.lt_succ_of_lt h3⟩
      rw [if_neg h]
      exact h2
  · intro p s hp
    obtain ⟨a, b, c, h1, h2⟩ := inv.sch p s hp
    exact ⟨a, b, c, List.mem_append_left _ h1, h2⟩
  · intro p b hb
    obtain ⟨h1, h2⟩ := inv.wr p b hb
    exact ⟨Nat.lt_succ_of_lt h1, h2.mono _ (hx p)⟩
  · intro p hp
    rw [writesTo_append, inv.unused p (Nat.le_of_succ_le hp), hx p, List.nil_append]
  · intro p r hp hmem
    rcases List.mem_append.1 hmem with hmem | hmem
    · obtain ⟨h1, h2, h3⟩ := inv.closed p r hp hmem
      exact ⟨Nat.lt_succ_of_lt h1, h2, h3.mono _ (hx p) (fun f hf => hf)⟩
    · cases List.mem_singleton.1 hmem

theorem step_schemaSimple (inv : Inv ce st H) (d m : Addr) (x y z : UInt8) (dt : TSDataType) (e : TSEncoding) (c : CompressionType)
    (h1 : TSDataType.tryFrom x = some dt) (h2 : TSEncoding.tryFrom y = some e) (h3 : CompressionType.tryFrom z = some c) :
    Inv ce { st with schemas := (st.next, ⟨d, m, dt, e, c⟩) :: st.schemas, next := st.next + 1 }
      (H ++ [(.schemaSimple d m x y z, .ok st.next)]) := by
  have hx : ∀ p, writesTo p (made [] H) [(CCall.schemaSimple d m x y z, Outcome.ok st.next)] = [] := fun _ => rfl
  refine ⟨?_, ?_, ?_, ?_, ?_⟩
  · intro p s' hp
    obtain ⟨h1, h2, h3⟩ := inv.str p s' hp
    rw [made_append]
    exact ⟨List.mem_append_left _ h1, h2, Nat.lt_succ_of_lt h3⟩
  · intro p s hp
    simp only [find_cons] at hp
    by_cases h : st.next = p
    · rw [if_pos h] at hp
      obtain rfl := Option.some.inj hp
      subst h
      exact ⟨x, y, z, List.mem_append_right _ (List.mem_singleton.2 rfl), h1, h2, h3⟩
    · rw [if_neg h] at hp
      obtain ⟨a, b, c, h1, h2⟩ := inv.sch p s hp
      exact ⟨a, b, c, List.mem_append_left _ h1, h2⟩
  · intro p b hb
    obtain ⟨h1, h2⟩ := inv.wr p b hb
    exact ⟨Nat.lt_succ_of_lt h1, h2.mono _ (hx p)⟩
  · intro p hp
    rw [writesTo_append, inv.unused p (Nat.le_of_succ_le hp), hx p, List.nil_append]
  · intro p r hp hmem
    rcases List.mem_append.1 hmem with hmem | hmem
    · obtain ⟨h1, h2, h3⟩ := inv.closed p r hp hmem
      exact ⟨Nat.lt_succ_of_lt h1, h2, h3.mono _ (hx p) (fun f hf => hf)⟩
    · cases List.mem_singleton.1 hmem

theorem step_fileWriterNew (inv : Inv ce st H) (fa sa : Addr) (f : Bytes) (hf : find fa st.strings = some f) (s : SchemaBox)
    (hs : find sa st.schemas = some s) (d m : Bytes) (hd : find s.device st.strings = some d)
    (hm : find s.measurement st.strings = some m) (w : Writer)
    (hw : Writer.new ce.env (Schema.simple d m s.dataType s.encoding s.compression) { bytes := [], cap := none } = .ok w) :
    Inv ce { st with writers := (st.next, ⟨f, w, [s.device, s.measurement]⟩) :: st.writers, next := st.next + 1 }
      (H ++ [(.fileWriterNew fa sa, .ok st.next)]) := by
  have hx : ∀ p, writesTo p (made [] H) [(CCall.fileWriterNew fa sa, Outcome.ok st.next)] = [] := fun _ => rfl
  refine ⟨?_, ?_, ?_, ?_, ?_⟩
  · intro p s' hp
    obtain ⟨h1, h2, h3⟩ := inv.str p s' hp
    rw [made_append]
    exact ⟨List.mem_append_left _ h1, h2, Nat.lt_succ_of_lt h3⟩
  · intro p s hp
    obtain ⟨a, b, c, h1, h2⟩ := inv.sch p s hp
    exact ⟨a, b, c, List.mem_append_left _ h1, h2⟩
  · intro p b hb
    simp only [find_cons] at hb
    by_cases h : st.next = p
    · rw [if_pos h] at hb
      obtain rfl := Option.some.inj hb
      subst h
      refine ⟨Nat.lt_succ_self _, d, m, ⟨s.dataType, s.encoding, s.compression⟩, w, ?_, hw, ?_, ?_⟩
      · obtain ⟨x, y, z, h1, h2, h3, h4⟩ := inv.sch sa s hs
        exact ⟨fa, sa, s.device, s.measurement, x, y, z, List.mem_append_left _ (inv.str fa f hf).1,
          List.mem_append_left _ (inv.str _ _ hd).1, List.mem_append_left _ (inv.str _ _ hm).1,
          List.mem_append_left _ h1, List.mem_append_right _ (List.mem_singleton.2 rfl), h2, h3, h4⟩
      · rw [writesTo_append, inv.unused _ (Nat.le_refl _), hx]; rfl
      · rw [writesTo_append, inv.unused _ (Nat.le_refl _), hx]
        intro r hr; cases hr
    · rw [if_neg h] at hb
      obtain ⟨h1, h2⟩ := inv.wr p b hb
      exact ⟨Nat.lt_succ_of_lt h1, h2.mono _ (hx p)⟩
  · intro p hp
    rw [writesTo_append, inv.unused p (Nat.le_of_succ_le hp), hx p, List.nil_append]
  · intro p r hp hmem
    rcases List.mem_append.1 hmem with hmem | hmem
    · obtain ⟨h1, h2, h3⟩ := inv.closed p r hp hmem
      refine ⟨Nat.lt_succ_of_lt h1, ?_, h3.mono _ (hx p) (fun f hf => hf)⟩
      simp only [find_cons]
      rw [if_neg (Nat.ne_of_gt h1)]
      exact h2
    · cases List.mem_singleton.1 hmem

theorem step_write (inv : Inv ce st H) (w da ma : Addr) (t : W64) (v : W32) (d m : Bytes) (hd : find da st.strings = some d)
    (hm : find ma st.strings = some m) (b : WriterBox) (hb : find w st.writers = some b) (w' : Writer)
    (hw : b.writer.write ce.env d m t (.INT v) = (w', .ok ())) (kept : List Addr) :
    Inv ce { st with writers := (w, ⟨b.filename, w', kept⟩) :: release w st.writers }
      (H ++ [(.fileWriterWriteInt32 w da ma t v, .ok w)]) := by
  have hx : ∀ p, p ≠ w → writesTo p (made [] H) [(CCall.fileWriterWriteInt32 w da ma t v, Outcome.ok w)] = [] := by
    intro p hp
    rw [writesTo, if_neg (fun h => hp h.symm), writesTo]
  have hxw : writesTo w (made [] H) [(CCall.fileWriterWriteInt32 w da ma t v, Outcome.ok w)] = [.write d m t (.INT v)] := by
    rw [writesTo, if_pos rfl, writesTo, (inv.str da d hd).2.1, (inv.str ma m hm).2.1]
  refine ⟨?_, ?_, ?_, ?_, ?_⟩
  · intro p s' hp
    obtain ⟨h1, h2, h3⟩ := inv.str p s' hp
    rw [made_append]
    exact ⟨List.mem_append_left _ h1, h2, h3⟩
  · intro p s hp
    obtain ⟨a, b, c, h1, h2⟩ := inv.sch p s hp
    exact ⟨a, b, c, List.mem_append_left _ h1, h2⟩
  · intro p c hc
    simp only [find_cons, find_release] at hc
    by_cases h : w = p
    · subst h
      rw [if_pos rfl] at hc
      obtain rfl := Option.some.inj hc
      obtain ⟨h1, d', m', ms, w0, h2, h3, h4, h5⟩ := inv.wr w b hb
      refine ⟨h1, d', m', ms, w0, OpenedAs.mono h2 _, h3, ?_, ?_⟩
      · rw [writesTo_append, hxw, run_snoc, h4]
        show (b.writer.write ce.env d m t (.INT v)).1 = w'
        rw [hw]
      · rw [writesTo_append, hxw, run_snoc, h4]
        intro r hr
        rcases List.mem_append.1 hr with hr | hr
        · exact h5 r hr
        · rw [List.mem_singleton.1 hr]
          show (b.writer.write ce.env d m t (.INT v)).2 = _
          rw [hw]
    · rw [if_neg h, if_neg (fun h' => h h'.symm)] at hc
      obtain ⟨h1, h2⟩ := inv.wr p c hc
      exact ⟨h1, h2.mono _ (hx p (fun h' => h h'.symm))⟩
  · intro p hp
    have hlt := (inv.wr w b hb).1
    rw [writesTo_append, inv.unused p hp, hx p (Nat.ne_of_gt (Nat.lt_of_lt_of_le hlt hp)), List.nil_append]
  · intro p r hp hmem
    rcases List.mem_append.1 hmem with hmem | hmem
    · obtain ⟨h1, h2, h3⟩ := inv.closed p r hp hmem
      have hpw : p ≠ w := by
        rintro rfl
        rw [hb] at h2; cases h2
      refine ⟨h1, ?_, h3.mono _ (hx p hpw) (fun f hf => hf)⟩
      simp only [find_cons, find_release]
      rw [if_neg (fun h => hpw h.symm), if_neg hpw]
      exact h2
    · cases List.mem_singleton.1 hmem

theorem step_close (inv : Inv ce st H) (w : Addr) (b : WriterBox) (hb : find w st.writers = some b) (w' : Writer)
    (hw : b.writer.close ce.env = some w') :
    Inv ce { st with writers := release w st.writers, files := (b.filename, w'.io.out.bytes) :: st.files }
      (H ++ [(.fileWriterClose w, .ok 0)]) := by
  have hx : ∀ p, writesTo p (made [] H) [(CCall.fileWriterClose w, Outcome.ok 0)] = [] := fun _ => rfl
  refine ⟨?_, ?_, ?_, ?_, ?_⟩
  · intro p s' hp
    obtain ⟨h1, h2, h3⟩ := inv.str p s' hp
    rw [made_append]
    exact ⟨List.mem_append_left _ h1, h2, h3⟩
  · intro p s hp
    obtain ⟨a, b, c, h1, h2⟩ := inv.sch p s hp
    exact ⟨a, b, c, List.mem_append_left _ h1, h2⟩
  · intro p c hc
    simp only [find_release] at hc
    by_cases h : p = w
    · rw [if_pos h] at hc; cases hc
    · rw [if_neg h] at hc
      obtain ⟨h1, h2⟩ := inv.wr p c hc
      exact ⟨h1, h2.mono _ (hx p)⟩
  · intro p hp
    rw [writesTo_append, inv.unused p hp, hx p, List.nil_append]
  · intro p r hp hmem
    have hold : (CCall.fileWriterClose p, Outcome.ok r) ∈ H → _ := fun hmem => by
      obtain ⟨h1, h2, h3⟩ := inv.closed p r hp hmem
      have : p < st.next ∧ find p (release w st.writers) = none
          ∧ Done ce ((b.filename, w'.io.out.bytes) :: st.files) (H ++ [(.fileWriterClose w, .ok 0)]) p := by
        refine ⟨h1, ?_, h3.mono _ (hx p) (fun f hf => List.mem_cons_of_mem _ hf)⟩
        rw [find_release]
        by_cases h : p = w
        · rw [if_pos h]
        · rw [if_neg h]; exact h2
      exact this
    rcases List.mem_append.1 hmem with hmem | hmem
    · exact hold hmem
    · have hpw : p = w := by
        have := List.mem_singleton.1 hmem
        simp only [Prod.mk.injEq, CCall.fileWriterClose.injEq] at this
        exact this.1
      subst hpw
      obtain ⟨h1, d', m', ms, w0, h2, h3, h4, h5⟩ := inv.wr p b hb
      refine ⟨h1, by rw [find_release, if_pos rfl], b.filename, d', m', ms,
        ⟨(w0.run ce.env (writesTo p [] H)).2, w0.grown ce.env (writesTo p [] H),
          w'.io.out.bytes.length - (w0.run ce.env (writesTo p [] H)).1.io.out.bytes.length, w'.io.out.bytes⟩,
        OpenedAs.mono h2 _, ?_, h5, List.mem_cons_self ..⟩
      rw [writesTo_append, hx, List.append_nil, session, h3]
      dsimp only
      rw [if_neg (fun h => by have := h5 _ h; cases this), h4, hw]

theorem inv_step (inv : Inv ce st H) (c : CCall) : Inv ce (step ce st c).2 (H ++ [(c, (step ce st c).1)]) := by
  have idle : ∀ (c : CCall) (o : Outcome), (∀ r, o ≠ .ok r) → Inv ce st (H ++ [(c, o)]) := by
    intro c o ho
    apply inv.idle (c, o) st rfl (fun _ _ h => h) (fun _ _ h => h) rfl rfl
    · intro p
      cases o with
      | ok r => exact absurd rfl (ho r)
      | _ => cases c <;> rfl
    · cases o with
      | ok r => exact absurd rfl (ho r)
      | _ => cases c <;> rfl
    · intro p r h
      cases h
      exact absurd rfl (ho r)
  have hcstr : ∀ p e, cstr st p = .error e → ∀ r, e ≠ .ok r := by
    intro p e h r
    unfold cstr at h
    by_cases h0 : p = 0
    · rw [if_pos h0] at h; cases h; simp
    · rw [if_neg h0] at h
      cases hf : find p st.strings with
      | none => rw [hf] at h; cases h; simp
      | some x => rw [hf] at h; cases h
  have ab : ∀ r, Outcome.abort ≠ .ok r := by simp
  have ub : ∀ r, Outcome.ub ≠ .ok r := by simp
  cases c with
  | newString s => exact step_newString inv s
  | freeString p =>
    simp only [step]
    cases hf : find p st.strings with
    | none => exact idle _ _ ub
    | some x =>
      refine inv.idle _ { st with strings := release p st.strings } rfl ?_ (fun _ _ h => h) rfl rfl (fun _ => rfl) rfl ?_
      · intro q s hq
        rw [find_release] at hq
        by_cases h : q = p
        · rw [if_pos h] at hq; cases hq
        · rw [if_neg h] at hq; exact hq
      · intro p r h; cases h
  | schemaSimple d m x y z =>
    show Inv ce (schemaSimple ce st d m x y z).2 (H ++ [(_, (schemaSimple ce st d m x y z).1)])
    unfold schemaSimple
    cases hd : cstr st d with
    | error e => exact idle _ _ (hcstr _ _ hd)
    | ok sd =>
      cases hm : cstr st m with
      | error e => exact idle _ _ (hcstr _ _ hm)
      | ok sm =>
        dsimp only
        by_cases hu : (ce.utf8 sd && ce.utf8 sm) = true
        · rw [if_pos hu]
          cases h1 : TSDataType.tryFrom x with
          | none => exact idle _ _ ab
          | some dt =>
            cases h2 : TSEncoding.tryFrom y with
            | none => exact idle _ _ ab
            | some e =>
              cases h3 : CompressionType.tryFrom z with
              | none => exact idle _ _ ab
              | some c => exact step_schemaSimple inv d m x y z dt e c h1 h2 h3
        · rw [if_neg hu]; exact idle _ _ ab
  | schemaFree s =>
    show Inv ce (schemaFree st s).2 (H ++ [(_, (schemaFree st s).1)])
    unfold schemaFree
    by_cases h0 : s = 0
    · rw [if_pos h0]
      exact inv.idle _ st rfl (fun _ _ h => h) (fun _ _ h => h) rfl rfl (fun _ => rfl) rfl (fun p r h => by cases h)
    · rw [if_neg h0]
      cases hf : find s st.schemas with
      | none => exact idle _ _ ub
      | some x =>
        refine inv.idle _ { st with schemas := release s st.schemas } rfl (fun _ _ h => h) ?_ rfl rfl (fun _ => rfl) rfl ?_
        · intro q s' hq
          rw [find_release] at hq
          by_cases h : q = s
          · rw [if_pos h] at hq; cases hq
          · rw [if_neg h] at hq; exact hq
        · intro p r h; cases h
  | fileWriterNew f s =>
    show Inv ce (fileWriterNew ce st f s).2 (H ++ [(_, (fileWriterNew ce st f s).1)])
    unfold fileWriterNew
    cases hf : cstr st f with
    | error e => exact idle _ _ (hcstr _ _ hf)
    | ok sf =>
      cases hs : find s st.schemas with
      | none => exact idle _ _ ub
      | some sb =>
        cases hd : find sb.device st.strings with
        | none => simp only [hd]; exact idle _ _ ub
        | some d =>
          cases hm : find sb.measurement st.strings with
          | none => simp only [hd, hm]; exact idle _ _ ub
          | some m =>
            simp only [hd, hm]
            by_cases hu : (ce.utf8 sf && ce.canCreate sf) = true
            · rw [if_pos hu]
              cases hw : Writer.new ce.env (Schema.simple d m sb.dataType sb.encoding sb.compression)
                  { bytes := [], cap := none } with
              | error e => exact idle _ _ ab
              | ok w => exact step_fileWriterNew inv f s sf (cstr_ok hf).2 sb hs d m hd hm w hw
            · rw [if_neg hu]; exact idle _ _ ab
  | fileWriterWriteInt32 w d m t v =>
    show Inv ce (fileWriterWriteInt32 ce st w d m t v).2 (H ++ [(_, (fileWriterWriteInt32 ce st w d m t v).1)])
    unfold fileWriterWriteInt32
    by_cases h0 : w = 0
    · rw [if_pos h0]; exact idle _ _ ab
    rw [if_neg h0]
    cases hd : cstr st d with
    | error e => exact idle _ _ (hcstr _ _ hd)
    | ok sd =>
      cases hm : cstr st m with
      | error e => exact idle _ _ (hcstr _ _ hm)
      | ok sm =>
        cases hb : find w st.writers with
        | none => exact idle _ _ ub
        | some b =>
          dsimp only
          by_cases hu : (ce.utf8 sd && ce.utf8 sm) = true
          · rw [if_pos hu]
            by_cases hk : (b.borrowed.all (fun p => (find p st.strings).isSome)) = true
            · rw [if_pos hk]
              cases hw : b.writer.write ce.env sd sm t (.INT v) with
              | mk w' r =>
                cases r with
                | ok u => exact step_write inv w d m t v sd sm (cstr_ok hd).2 (cstr_ok hm).2 b hb w' hw _
                | _ => exact idle _ _ ab
            · rw [if_neg hk]; exact idle _ _ ub
          · rw [if_neg hu]; exact idle _ _ ab
  | fileWriterClose w =>
    show Inv ce (fileWriterClose ce st w).2 (H ++ [(_, (fileWriterClose ce st w).1)])
    unfold fileWriterClose
    by_cases h0 : w = 0
    · rw [if_pos h0]
      exact inv.idle _ st rfl (fun _ _ h => h) (fun _ _ h => h) rfl rfl (fun _ => rfl) rfl (fun p r h => by cases h; exact h0)
    · rw [if_neg h0]
      cases hb : find w st.writers with
      | none => exact idle _ _ ub
      | some b =>
        dsimp only
        by_cases hk : (b.borrowed.all (fun p => (find p st.strings).isSome)) = true
        · rw [if_pos hk]
          cases hw : b.writer.close ce.env with
          | none => exact idle _ _ ab
          | some w' => exact step_close inv w b hb w' hw
        · rw [if_neg hk]; exact idle _ _ ub

theorem inv_run (ce : CEnv) (cs : List CCall) : ∀ (st : State) (H : List (CCall × Outcome)), Inv ce st H →
    Inv ce (run ce st cs).2 (H ++ cs.zip (run ce st cs).1) := by
  induction cs with
  | nil => intro st H inv; rw [List.zip_nil_left, List.append_nil]; exact inv
  | cons c cs ih =>
    intro st H inv
    have h1 := inv_step inv c
    rw [run]
    rcases hs : step ce st c with ⟨o, st'⟩
    rw [hs] at h1
    cases o with
    | ok r =>
      have h2 := ih st' _ h1
      dsimp only
      rw [List.zip_cons_cons]
      rw [List.append_assoc] at h2
      exact h2
    | abort =>
      dsimp only
      rw [List.zip_cons_cons, List.zip_nil_right]
      exact h1
    | ub =>
      dsimp only
      rw [List.zip_cons_cons, List.zip_nil_right]
      exact h1

end TsFile.CApi
