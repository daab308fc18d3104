import Verif.Model.CDisk
import Verif.Proofs.CSession
import Verif.Proofs.Several
import Verif.Props.Faults
/-! # The files of a C program on the disk -/

namespace TsFile.CApi
open Spec
open Several (Event)

variable {ce : CEnv} {st st' : State} {H : List (CCall × Outcome)} {place : Bytes → Loc}

/-- What a call that returned did. -/
inductive Did (ce : CEnv) (place : Bytes → Loc) (st : State) (c : CCall) (r : Addr) (st' : State) : Prop
  | nothing (he : callEvents place st c r st' = []) (hw : st'.writers = st.writers) (hn : st.next ≤ st'.next)
      (hc : ∀ p, c = .fileWriterClose p → p = 0) (hx : ∀ p texts, writesTo p texts [(c, .ok r)] = [])
  | opened (fa sa : Addr) (b : WriterBox) (hcc : c = .fileWriterNew fa sa) (hr : r = st.next)
      (hw : st'.writers = (r, b) :: st.writers) (hn : st'.next = st.next + 1)
  | wrote (w d m : Addr) (t : W64) (v : W32) (b b' : WriterBox) (hcc : c = .fileWriterWriteInt32 w d m t v)
      (hb : find w st.writers = some b) (hw : st'.writers = (w, b') :: release w st.writers) (hf : b'.filename = b.filename)
      (hp : b.writer.io.out.bytes <+: b'.writer.io.out.bytes) (hn : st'.next = st.next)
  | closed (w : Addr) (b : WriterBox) (w' : Writer) (hcc : c = .fileWriterClose w) (h0 : w ≠ 0) (hb : find w st.writers = some b)
      (hcl : b.writer.close ce.env = some w') (hw : st'.writers = release w st.writers)
      (hf : st'.files = (b.filename, w'.io.out.bytes) :: st.files) (hn : st'.next = st.next)

theorem cstr_not_ok {p r : Addr} {e : Outcome} (h : cstr st p = .error e) : e ≠ .ok r := by
  unfold cstr at h
  split at h
  · cases h; simp
  · split at h
    · cases h; simp
    · cases h

theorem did {c : CCall} {r : Addr} (h : step ce st c = (.ok r, st')) (hz : find 0 st.writers = none) :
    Did ce place st c r st' := by
  cases c with
  | newString s =>
    cases h
    exact .nothing rfl rfl (Nat.le_succ _) (fun p h => by cases h) (fun _ _ => rfl)
  | freeString p =>
    simp only [step] at h
    split at h
    · cases h
    · cases h
      exact .nothing rfl rfl (Nat.le_refl _) (fun p h => by cases h) (fun _ _ => rfl)
  | schemaSimple d m x y z =>
    simp only [step, schemaSimple] at h
    split at h
    · rename_i e he
      cases h
      exact absurd rfl (cstr_not_ok he)
    · split at h
      · rename_i e he
        cases h
        exact absurd rfl (cstr_not_ok he)
      · split at h
        · split at h
          · cases h
            exact .nothing rfl rfl (Nat.le_succ _) (fun p h => by cases h) (fun _ _ => rfl)
          · cases h
        · cases h
  | schemaFree s =>
    simp only [step, schemaFree] at h
    split at h
    · cases h
      exact .nothing rfl rfl (Nat.le_refl _) (fun p h => by cases h) (fun _ _ => rfl)
    · split at h
      · cases h
      · cases h
        exact .nothing rfl rfl (Nat.le_refl _) (fun p h => by cases h) (fun _ _ => rfl)
  | fileWriterNew f s =>
    simp only [step, fileWriterNew] at h
    split at h
    · rename_i e he
      cases h
      exact absurd rfl (cstr_not_ok he)
    · split at h
      · cases h
      · split at h
        · split at h
          · split at h
            · cases h
            · cases h
              exact .opened f s _ rfl rfl rfl rfl
          · cases h
        · cases h
  | fileWriterWriteInt32 w d m t v =>
    simp only [step, fileWriterWriteInt32] at h
    split at h
    · cases h
    · split at h
      · rename_i e he
        cases h
        exact absurd rfl (cstr_not_ok he)
      · split at h
        · rename_i e he
          cases h
          exact absurd rfl (cstr_not_ok he)
        · split at h
          · cases h
          · rename_i b hb
            split at h
            · split at h
              · split at h
                · rename_i dn _ _ mn _ _ _ _ _ w' hw'
                  cases h
                  have := (Grows.run ce.env [.write dn mn t (.INT v)] b.writer).pre
                  rw [Writer.run, Writer.run, Writer.step, hw'] at this
                  exact .wrote _ d m t v b _ rfl hb rfl rfl this rfl
                · cases h
              · cases h
            · cases h
  | fileWriterClose w =>
    simp only [step, fileWriterClose] at h
    split at h
    · rename_i h0
      cases h
      subst h0
      exact .nothing (by simp only [callEvents, hz]) rfl (Nat.le_refl _) (fun p h => by cases h; rfl) (fun _ _ => rfl)
    · rename_i h0
      split at h
      · cases h
      · rename_i b hb
        split at h
        · split at h
          · cases h
          · rename_i w' hw'
            cases h
            exact .closed w b w' rfl h0 hb hw' rfl rfl rfl
        · cases h

/-- The invariant: what every writer has done to the file system so far. -/
structure OnDisk (ce : CEnv) (place : Bytes → Loc) (st : State) (H : List (CCall × Outcome)) (evs : List Event) : Prop where
  zero : find 0 st.writers = none ∧ 0 < st.next
  opened : ∀ p b, find p st.writers = some b →
    ∃ pieces, Works p (place b.filename) pieces evs ∧ pieces.flatten = b.writer.io.out.bytes
  unused : ∀ p, st.next ≤ p → eventsOf p evs = []
  creates : ∀ q l, .create q l ∈ evs → ∃ f d m ms, OpenedAs H q f d m ms ∧ place f = l
  closed : ∀ p r, p ≠ 0 → (.fileWriterClose p, .ok r) ∈ H → ∃ f d m ms s pieces, OpenedAs H p f d m ms
    ∧ session ce.env [(d, [(m, ms)])] (writesTo p [] H) = some s ∧ Works p (place f) pieces evs ∧ pieces.flatten = s.file

theorem onDisk_start : OnDisk ce place start [] [] :=
  ⟨⟨rfl, by decide⟩, fun p b h => (by cases h), fun _ _ => rfl, fun q l h => (by cases h), fun p r _ h => (by cases h)⟩

theorem eventsOf_append (p : Nat) (a b : List Event) : eventsOf p (a ++ b) = eventsOf p a ++ eventsOf p b := List.filter_append ..

theorem works_append {p : Nat} {l : Loc} {pieces ps : List Bytes} {evs more : List Event} (h : Works p l pieces evs)
    (hm : eventsOf p more = ps.map (.write p)) : Works p l (pieces ++ ps) (evs ++ more) := by
  rw [Works, eventsOf_append, h, hm, List.map_append]
  rfl

theorem works_same {p : Nat} {l : Loc} {pieces : List Bytes} {evs more : List Event} (h : Works p l pieces evs)
    (hm : eventsOf p more = []) : Works p l pieces (evs ++ more) := by
  have := works_append (ps := []) h hm
  rwa [List.append_nil] at this

theorem drop_of_prefix {a b : Bytes} (h : a <+: b) : a ++ b.drop a.length = b := by
  obtain ⟨t, rfl⟩ := h
  rw [List.drop_left]

theorem onDisk_step {evs : List Event} {c : CCall} {r : Addr} (od : OnDisk ce place st H evs) (inv : Inv ce st H)
    (inv' : Inv ce st' (H ++ [(c, .ok r)])) (h : step ce st c = (.ok r, st')) :
    OnDisk ce place st' (H ++ [(c, .ok r)]) (evs ++ callEvents place st c r st') := by
  have old : (∀ p, find p st.writers = none → writesTo p (made [] H) [(c, .ok r)] = [])
      → (∀ p, find p st.writers = none → p < st.next → eventsOf p (callEvents place st c r st') = [])
      → ∀ p r', p ≠ 0 → (.fileWriterClose p, .ok r') ∈ H → ∃ f d m ms s pieces, OpenedAs (H ++ [(c, .ok r)]) p f d m ms
        ∧ session ce.env [(d, [(m, ms)])] (writesTo p [] (H ++ [(c, .ok r)])) = some s
        ∧ Works p (place f) pieces (evs ++ callEvents place st c r st') ∧ pieces.flatten = s.file := by
    intro h1 h2 p r' hp hmem
    obtain ⟨i1, i2, _⟩ := inv.closed p r' hp hmem
    obtain ⟨f, d, m, ms, s, pieces, o1, o2, o3, o4⟩ := od.closed p r' hp hmem
    refine ⟨f, d, m, ms, s, pieces, OpenedAs.mono o1 _, ?_, works_same o3 (h2 p i2 i1), o4⟩
    rw [writesTo_append, h1 p i2, List.append_nil]
    exact o2
  have oldc : ∀ q l, .create q l ∈ evs → ∃ f d m ms, OpenedAs (H ++ [(c, .ok r)]) q f d m ms ∧ place f = l := by
    intro q l hmem
    obtain ⟨f, d, m, ms, o1, o2⟩ := od.creates q l hmem
    exact ⟨f, d, m, ms, OpenedAs.mono o1 _, o2⟩
  cases did (place := place) h od.zero.1 with
  | nothing he hw hn hc hx =>
    have old' := old (fun p _ => hx p _) (fun p _ _ => by rw [he]; rfl)
    rw [he, List.append_nil] at old' ⊢
    refine ⟨⟨by rw [hw]; exact od.zero.1, Nat.lt_of_lt_of_le od.zero.2 hn⟩, by rw [hw]; exact od.opened,
      fun p hp => od.unused p (Nat.le_trans hn hp), oldc, fun p r' hp hmem => ?_⟩
    rcases List.mem_append.1 hmem with hmem | hmem
    · exact old' p r' hp hmem
    · have := List.mem_singleton.1 hmem
      rw [Prod.mk.injEq] at this
      exact absurd (hc p this.1.symm) hp
  | opened fa sa b hcc hr hw hn =>
    have hf : find r st'.writers = some b := by rw [hw, find_cons, if_pos rfl]
    have he : callEvents place st c r st' = [.create r (place b.filename), .write r b.writer.io.out.bytes] := by
      subst hcc
      simp only [callEvents, hf]
    have hne : ∀ p, p ≠ r → eventsOf p (callEvents place st c r st') = [] := by
      intro p hp
      rw [he, eventsOf, List.filter_eq_nil_iff]
      intro e hmem
      simp only [List.mem_cons, List.not_mem_nil, or_false] at hmem
      rcases hmem with rfl | rfl <;> exact fun h => hp (of_decide_eq_true h).symm
    refine ⟨⟨?_, by rw [hn]; exact Nat.succ_pos _⟩, fun p b' hb => ?_, fun p hp => ?_, fun q l hmem => ?_, fun p r' hp hmem => ?_⟩
    · rw [hw, find_cons, if_neg (fun h => Nat.lt_irrefl 0 (by have := od.zero.2; rw [← hr, h] at this; exact this))]
      exact od.zero.1
    · rw [hw, find_cons] at hb
      by_cases hp : r = p
      · subst hp
        rw [if_pos rfl] at hb
        obtain rfl := Option.some.inj hb
        refine ⟨[b.writer.io.out.bytes], ?_, by simp⟩
        rw [Works, eventsOf_append, od.unused _ (Nat.le_of_eq hr.symm), he]
        simp [eventsOf, Event.who]
      · rw [if_neg hp] at hb
        obtain ⟨pieces, h1, h2⟩ := od.opened p b' hb
        exact ⟨pieces, works_same h1 (hne p (Ne.symm hp)), h2⟩
    · rw [eventsOf_append, od.unused p (Nat.le_trans (by rw [hn]; exact Nat.le_succ _) hp),
        hne p (fun h => Nat.lt_irrefl _ (by rw [hn, h, hr] at hp; exact hp))]
      rfl
    · rcases List.mem_append.1 hmem with hmem | hmem
      · exact oldc q l hmem
      · rw [he] at hmem
        simp only [List.mem_cons, List.not_mem_nil, or_false, Event.create.injEq, reduceCtorEq] at hmem
        obtain ⟨rfl, rfl⟩ := hmem
        obtain ⟨_, d, m, ms, _, o, _⟩ := inv'.wr q b hf
        exact ⟨_, d, m, ms, o, rfl⟩
    · rcases List.mem_append.1 hmem with hmem | hmem
      · exact old (fun p _ => by rw [hcc]; rfl) (fun p _ hlt => hne p (fun h => Nat.lt_irrefl _ (by rw [h, hr] at hlt; exact hlt))) p r' hp hmem
      · rw [hcc] at hmem
        cases List.mem_singleton.1 hmem
  | wrote w d m t v b b' hcc hb hw hfn hpre hn =>
    have hf : find w st'.writers = some b' := by rw [hw, find_cons, if_pos rfl]
    have he : callEvents place st c r st' = [.write w (b'.writer.io.out.bytes.drop b.writer.io.out.bytes.length)] := by
      subst hcc
      simp only [callEvents, hf, hb]
    have hne : ∀ p, p ≠ w → eventsOf p (callEvents place st c r st') = [] := by
      intro p hp
      rw [he, eventsOf, List.filter_eq_nil_iff]
      intro e hmem
      obtain rfl := List.mem_singleton.1 hmem
      exact fun h => hp (of_decide_eq_true h).symm
    have hlt := (inv.wr w b hb).1
    have hw0 : w ≠ 0 := by
      rintro rfl
      rw [od.zero.1] at hb
      cases hb
    refine ⟨⟨?_, by rw [hn]; exact od.zero.2⟩, fun p b'' hb' => ?_, fun p hp => ?_, fun q l hmem => ?_, fun p r' hp hmem => ?_⟩
    · rw [hw, find_cons, if_neg hw0, find_release, if_neg (Ne.symm hw0)]
      exact od.zero.1
    · by_cases hp : p = w
      · subst hp
        rw [hf] at hb'
        obtain rfl := Option.some.inj hb'
        obtain ⟨pieces, h1, h2⟩ := od.opened p b hb
        refine ⟨pieces ++ [b'.writer.io.out.bytes.drop b.writer.io.out.bytes.length], ?_, ?_⟩
        · rw [hfn]
          refine works_append h1 ?_
          rw [he]
          simp [eventsOf, Event.who]
        · rw [List.flatten_append, h2, List.flatten_singleton]
          exact drop_of_prefix hpre
      · rw [hw, find_cons, if_neg (Ne.symm hp), find_release, if_neg hp] at hb'
        obtain ⟨pieces, h1, h2⟩ := od.opened p b'' hb'
        exact ⟨pieces, works_same h1 (hne p hp), h2⟩
    · rw [eventsOf_append, od.unused p (by rw [← hn]; exact hp),
        hne p (fun h => Nat.lt_irrefl _ (Nat.lt_of_lt_of_le hlt (by rw [← hn, ← h]; exact hp)))]
      rfl
    · rcases List.mem_append.1 hmem with hmem | hmem
      · exact oldc q l hmem
      · rw [he] at hmem
        cases List.mem_singleton.1 hmem
    · rcases List.mem_append.1 hmem with hmem | hmem
      · refine old (fun p hnone => ?_) (fun p hnone _ => hne p ?_) p r' hp hmem
        · have : w ≠ p := by
            rintro rfl
            rw [hb] at hnone
            cases hnone
          rw [hcc, writesTo, if_neg this, writesTo]
        · rintro rfl
          rw [hb] at hnone
          cases hnone
      · rw [hcc] at hmem
        cases List.mem_singleton.1 hmem
  | closed w b w' hcc h0 hb hcl hw hfiles hn =>
    have he : callEvents place st c r st' = [.write w (w'.io.out.bytes.drop b.writer.io.out.bytes.length)] := by
      subst hcc
      simp only [callEvents, hfiles, hb]
    have hne : ∀ p, p ≠ w → eventsOf p (callEvents place st c r st') = [] := by
      intro p hp
      rw [he, eventsOf, List.filter_eq_nil_iff]
      intro e hmem
      obtain rfl := List.mem_singleton.1 hmem
      exact fun h => hp (of_decide_eq_true h).symm
    have hlt := (inv.wr w b hb).1
    refine ⟨⟨?_, by rw [hn]; exact od.zero.2⟩, fun p b'' hb' => ?_, fun p hp => ?_, fun q l hmem => ?_, fun p r' hp hmem => ?_⟩
    · rw [hw, find_release, if_neg (Ne.symm h0)]
      exact od.zero.1
    · rw [hw, find_release] at hb'
      by_cases hp : p = w
      · rw [if_pos hp] at hb'
        cases hb'
      · rw [if_neg hp] at hb'
        obtain ⟨pieces, h1, h2⟩ := od.opened p b'' hb'
        exact ⟨pieces, works_same h1 (hne p hp), h2⟩
    · rw [eventsOf_append, od.unused p (by rw [← hn]; exact hp),
        hne p (fun h => Nat.lt_irrefl _ (Nat.lt_of_lt_of_le hlt (by rw [← hn, ← h]; exact hp)))]
      rfl
    · rcases List.mem_append.1 hmem with hmem | hmem
      · exact oldc q l hmem
      · rw [he] at hmem
        cases List.mem_singleton.1 hmem
    · rcases List.mem_append.1 hmem with hmem | hmem
      · refine old (fun p hnone => by rw [hcc]; rfl) (fun p hnone _ => hne p ?_) p r' hp hmem
        rintro rfl
        rw [hb] at hnone
        cases hnone
      · rw [hcc] at hmem
        have hpw : p = w := by
          have := List.mem_singleton.1 hmem
          simp only [Prod.mk.injEq, CCall.fileWriterClose.injEq] at this
          exact this.1
        subst hpw
        obtain ⟨_, d', m', ms, w0, h2, h3, h4, h5⟩ := inv.wr p b hb
        obtain ⟨pieces, o1, o2⟩ := od.opened p b hb
        refine ⟨b.filename, d', m', ms,
          ⟨(w0.run ce.env (writesTo p [] H)).2, w0.grown ce.env (writesTo p [] H),
            w'.io.out.bytes.length - (w0.run ce.env (writesTo p [] H)).1.io.out.bytes.length, w'.io.out.bytes⟩,
          pieces ++ [w'.io.out.bytes.drop b.writer.io.out.bytes.length], OpenedAs.mono h2 _, ?_, ?_, ?_⟩
        · rw [writesTo_append, hcc]
          rw [show writesTo p (made [] H) [(CCall.fileWriterClose p, Outcome.ok r)] = [] from rfl, List.append_nil, session, h3]
          dsimp only
          rw [if_neg (fun h => by have := h5 _ h; cases this), h4, hcl]
        · refine works_append o1 ?_
          rw [he]
          simp [eventsOf, Event.who]
        · rw [List.flatten_append, o2, List.flatten_singleton]
          exact drop_of_prefix (Grows.close ce.env _ hcl).pre

/-- A call that did not return. -/
theorem onDisk_idle {evs : List Event} {c : CCall} {o : Outcome} (od : OnDisk ce place st H evs) (ho : ∀ r, o ≠ .ok r) :
    OnDisk ce place st (H ++ [(c, o)]) evs := by
  refine ⟨od.zero, od.opened, od.unused, fun q l h => ?_, fun p r hp hmem => ?_⟩
  · obtain ⟨f, d, m, ms, o1, o2⟩ := od.creates q l h
    exact ⟨f, d, m, ms, OpenedAs.mono o1 _, o2⟩
  · rcases List.mem_append.1 hmem with hmem | hmem
    · obtain ⟨f, d, m, ms, s, pieces, o1, o2, o3, o4⟩ := od.closed p r hp hmem
      refine ⟨f, d, m, ms, s, pieces, OpenedAs.mono o1 _, ?_, o3, o4⟩
      have : writesTo p (made [] H) [(c, o)] = [] := by
        cases o with
        | ok r => exact absurd rfl (ho r)
        | _ => cases c <;> rfl
      rw [writesTo_append, this, List.append_nil]
      exact o2
    · have := List.mem_singleton.1 hmem
      rw [Prod.mk.injEq] at this
      exact absurd this.2.symm (ho r)

theorem onDisk_run (cs : List CCall) : ∀ (st : State) (H : List (CCall × Outcome)) (evs : List Event), OnDisk ce place st H evs →
    Inv ce st H → ∃ st', OnDisk ce place st' (H ++ cs.zip (run ce st cs).1) (evs ++ diskEvents place ce st cs) := by
  induction cs with
  | nil => intro st H evs od _; exact ⟨st, by simpa [diskEvents] using od⟩
  | cons c cs ih =>
    intro st H evs od inv
    have h1 := inv_step inv c
    rw [run, diskEvents]
    rcases hs : step ce st c with ⟨o, st'⟩
    rw [hs] at h1
    cases o with
    | ok r =>
      obtain ⟨st'', h2⟩ := ih st' _ _ (onDisk_step od inv h1 hs) h1
      refine ⟨st'', ?_⟩
      dsimp only
      rw [List.zip_cons_cons]
      rw [List.append_assoc, List.append_assoc] at h2
      exact h2
    | abort =>
      dsimp only
      rw [List.zip_cons_cons, List.zip_nil_right, List.append_nil]
      exact ⟨st, onDisk_idle od (by simp)⟩
    | ub =>
      dsimp only
      rw [List.zip_cons_cons, List.zip_nil_right, List.append_nil]
      exact ⟨st, onDisk_idle od (by simp)⟩

end TsFile.CApi
