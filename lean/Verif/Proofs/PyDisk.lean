import Verif.Model.PyDisk
import Verif.Proofs.CDisk
import Verif.Proofs.PythonStep
/-! # The files of a Python program on the disk -/

namespace TsFile.CApi
variable {ce : CEnv} {st st' : State}

theorem new_ok {f s r : Addr} (h : step ce st (.fileWriterNew f s) = (.ok r, st')) :
    ∃ b, r = st.next ∧ st'.writers = (r, b) :: st.writers ∧ st'.next = st.next + 1 := by
  simp only [step, fileWriterNew] at h
  split at h
  · rename_i e he
    cases h
    exact absurd rfl (cstr_not_ok he)
  · split at h
    · cases h
    · split at h
      · split at h
        · split at h
          · cases h
          · cases h
            exact ⟨_, rfl, rfl, rfl⟩
        · cases h
      · cases h

theorem write_ok {w d m r : Addr} {t : W64} {v : W32} (h : step ce st (.fileWriterWriteInt32 w d m t v) = (.ok r, st')) :
    ∃ b b', find w st.writers = some b ∧ st'.writers = (w, b') :: release w st.writers
      ∧ b.writer.io.out.bytes <+: b'.writer.io.out.bytes := by
  simp only [step, fileWriterWriteInt32] at h
  split at h
  · cases h
  · split at h
    · rename_i e he
      cases h
      exact absurd rfl (cstr_not_ok he)
    · split at h
      · rename_i e he
        cases h
        exact absurd rfl (cstr_not_ok he)
      · split at h
        · cases h
        · rename_i b hb
          split at h
          · split at h
            · split at h
              · rename_i dn _ _ mn _ _ _ _ _ w' hw'
                cases h
                have := (Grows.run ce.env [.write dn mn t (.INT v)] b.writer).pre
                rw [Writer.run, Writer.run, Writer.step, hw'] at this
                exact ⟨b, _, hb, rfl, this⟩
              · cases h
            · cases h
          · cases h

theorem close_ok {w r : Addr} (h0 : w ≠ 0) (h : step ce st (.fileWriterClose w) = (.ok r, st')) :
    ∃ b w', find w st.writers = some b ∧ b.writer.close ce.env = some w' ∧ st'.writers = release w st.writers
      ∧ st'.files = (b.filename, w'.io.out.bytes) :: st.files := by
  simp only [step, fileWriterClose] at h
  rw [if_neg h0] at h
  split at h
  · cases h
  · rename_i b hb
    split at h
    · split at h
      · cases h
      · rename_i w' hw'
        cases h
        exact ⟨b, w', hb, hw', rfl, rfl⟩
    · cases h

theorem schemaSimple_writers {d m r : Addr} {x y z : UInt8} (h : step ce st (.schemaSimple d m x y z) = (.ok r, st')) :
    st'.writers = st.writers := by
  simp only [step, schemaSimple] at h
  split at h
  · cases h; rfl
  · split at h
    · cases h; rfl
    · split at h
      · split at h
        · cases h; rfl
        · cases h
      · cases h

theorem schemaFree_writers {s r : Addr} (h : step ce st (.schemaFree s) = (.ok r, st')) : st'.writers = st.writers := by
  simp only [step, schemaFree] at h
  split at h
  · cases h; rfl
  · split at h
    · cases h
    · cases h; rfl

theorem freeString_writers {s r : Addr} (h : step ce st (.freeString s) = (.ok r, st')) : st'.writers = st.writers := by
  simp only [step] at h
  split at h
  · cases h
  · cases h; rfl

end TsFile.CApi

namespace TsFile.Py
open Spec CApi
open Several (Event)

variable {ce : CEnv} {p p' : PyState} {H : List (PyOp × PyOutcome)} {place : Bytes → Loc}

theorem get_writers (m : State) (h : Holder) (s : Bytes) : (get ce m h s).1.writers = m.writers := by
  unfold get
  split
  · rfl
  · rfl

theorem after_ok {r : Outcome × State} {k : Addr → PyState → PyOutcome × PyState} {o : PyOutcome} (ho : o ≠ .abort ∧ o ≠ .ub)
    (h : after p r k = (o, p')) : ∃ a mem, r = (.ok a, mem) ∧ k a { p with mem := mem } = (o, p') := by
  obtain ⟨o', mem⟩ := r
  cases o' with
  | ok a => exact ⟨a, mem, rfl, h⟩
  | abort => cases h; exact absurd rfl ho.1
  | ub => cases h; exact absurd rfl ho.2

/-- What a step did from which the program goes on. -/
inductive PDid (ce : CEnv) (p : PyState) (c : PyOp) (o : PyOutcome) (p' : PyState) : Prop
  | idle (he : ∀ place, stepEvents place p c o p' = []) (hw : p'.mem.writers = p.mem.writers)
      (hk : ∀ (k : Nat) (o' : WriterObj), p'.writers[k]? = some o' → o'.held = true → p.writers[k]? = some o') (hl : p'.writers.length = p.writers.length)
      (hc : ∀ k r, (c, o) ≠ (.close k, .ok r)) (hx : ∀ k, pyWrites k [(c, o)] = [])
  | opened (f : Bytes) (i : Nat) (a : Addr) (b : WriterBox) (hcc : c = .newWriter f i) (ho : o = .ok p.writers.length)
      (ha : p.mem.next ≤ a) (hw : p'.mem.writers = (a, b) :: p.mem.writers) (hp : p'.writers = p.writers ++ [⟨i, some a, true⟩])
  | wrote (k : Nat) (d m : Bytes) (t v : Int) (n : Nat) (x : WriterObj) (a : Addr) (b b' : WriterBox) (hcc : c = .writeInt k d m t v)
      (ho : o = .ok n) (hk : p.writers[k]? = some x) (hi : x.inst = some a) (hh : x.held = true) (hb : find a p.mem.writers = some b)
      (hw : p'.mem.writers = (a, b') :: release a p.mem.writers) (hp : p'.writers = p.writers)
      (hpre : b.writer.io.out.bytes <+: b'.writer.io.out.bytes)
  | closed (k n : Nat) (x : WriterObj) (a : Addr) (b : WriterBox) (w' : Writer) (hcc : c = .close k)
      (ho : o = .ok n) (hk : p.writers[k]? = some x) (hi : x.inst = some a) (hh : x.held = true) (hb : find a p.mem.writers = some b)
      (hcl : b.writer.close ce.env = some w') (hw : p'.mem.writers = release a p.mem.writers)
      (hf : p'.mem.files = (b.filename, w'.io.out.bytes) :: p.mem.files) (hp : p'.writers = p.writers.set k { x with inst := none })

theorem pdid_raises {c : PyOp} {o : PyOutcome} {q : PyState} (h : (PyOutcome.raises, q) = (o, p')) (hq : q.mem.writers = p.mem.writers)
    (hw : q.writers = p.writers) : PDid ce p c o p' := by
  cases h
  refine .idle (fun place => by cases c <;> rfl) hq (fun k o' h _ => by rw [← hw]; exact h) (by rw [hw]) (by simp) (fun k => by cases c <;> rfl)

theorem reclaim_writers (p : PyState) (i : Nat) : (reclaim p i).mem.writers = p.mem.writers ∧ (reclaim p i).writers = p.writers := by
  unfold reclaim
  split
  · exact ⟨rfl, rfl⟩
  · split <;> exact ⟨rfl, rfl⟩

theorem pdid {c : PyOp} {o : PyOutcome} (inv : PInv ce p H) (ho : o ≠ .abort ∧ o ≠ .ub) (h : step ce p c = (o, p')) :
    PDid ce p c o p' := by
  cases c with
  | newSchema d m x y z =>
    simp only [step, newSchema] at h
    split at h
    · obtain ⟨a, mem, h1, h2⟩ := after_ok ho h
      cases h2
      have := schemaSimple_writers h1
      rw [get_writers, get_writers] at this
      exact .idle (fun _ => rfl) this (fun k o' h _ => h) rfl (by simp) (fun _ => rfl)
    · exact pdid_raises h rfl rfl
  | freeSchema i =>
    simp only [step, freeSchema] at h
    split at h
    · exact pdid_raises h rfl rfl
    · split at h
      · split at h
        · exact pdid_raises h rfl rfl
        · obtain ⟨a, mem, h1, h2⟩ := after_ok ho h
          cases h2
          exact .idle (fun _ => rfl) (schemaFree_writers h1) (fun k o' h _ => h) rfl (by simp) (fun _ => rfl)
      · exact pdid_raises h rfl rfl
  | newWriter f i =>
    simp only [step, newWriter] at h
    split at h
    · exact pdid_raises h rfl rfl
    · split at h
      · split at h
        · exact pdid_raises h rfl rfl
        · obtain ⟨fa, mem, h1, h2⟩ := after_ok ho h
          cases h1
          obtain ⟨w, mem, h3, h4⟩ := after_ok ho h2
          obtain ⟨u, mem', h5, h6⟩ := after_ok ho h4
          cases h6
          obtain ⟨b, g1, g2, g3⟩ := new_ok h3
          refine .opened f i w b rfl rfl (by rw [g1]; exact Nat.le_succ _) ((freeString_writers h5).trans g2) rfl
      · exact pdid_raises h rfl rfl
  | writeInt k d m t v =>
    simp only [step, writeInt] at h
    split at h
    · exact pdid_raises h rfl rfl
    · rename_i x hk
      split at h
      · rename_i hh
        split at h
        · rename_i a s hi hs
          split at h
          · obtain ⟨r, mem, h1, h2⟩ := after_ok ho h
            cases h2
            obtain ⟨b, b', g1, g2, g3⟩ := write_ok h1
            rw [get_writers, get_writers] at g1 g2
            exact .wrote k d m t v 0 x a b b' rfl rfl hk hi hh g1 g2 rfl g3
          · exact pdid_raises h ((get_writers _ _ _).trans (get_writers _ _ _)) rfl
        · exact pdid_raises h rfl rfl
      · exact pdid_raises h rfl rfl
  | close k =>
    simp only [step, close] at h
    split at h
    · exact pdid_raises h rfl rfl
    · rename_i x hk
      split at h
      · rename_i hh
        split at h
        · exact pdid_raises h rfl rfl
        · rename_i a hi
          obtain ⟨r, mem, h1, h2⟩ := after_ok ho h
          cases h2
          obtain ⟨b, w', g1, g2, g3, g4⟩ := close_ok (Nat.ne_of_gt (inv.wriLt k x a hk hi).1) h1
          exact .closed k 0 x a b w' rfl rfl hk hi hh g1 g2 g3 g4 rfl
      · exact pdid_raises h rfl rfl
  | delSchema i =>
    simp only [step, delSchema] at h
    split at h
    · exact pdid_raises h rfl rfl
    · split at h
      · cases h
        exact .idle (fun _ => rfl) (reclaim_writers _ _).1 (fun k o' h _ => by rw [(reclaim_writers _ _).2] at h; exact h)
          (by rw [(reclaim_writers _ _).2]) (by simp) (fun _ => rfl)
      · exact pdid_raises h rfl rfl
  | delWriter k =>
    simp only [step, delWriter] at h
    split at h
    · exact pdid_raises h rfl rfl
    · split at h
      · cases h
        refine .idle (fun _ => rfl) (reclaim_writers _ _).1 (fun k' o' h hh => ?_)
          (by rw [(reclaim_writers _ _).2]; exact List.length_set) (by simp) (fun _ => rfl)
        rw [(reclaim_writers _ _).2] at h
        rcases getElem?_set_cases h with ⟨-, h⟩ | ⟨-, rfl, -⟩
        · exact h
        · cases hh
      · exact pdid_raises h rfl rfl

/-- The invariant: what every writer object has done to the file system so far. -/
structure PDisk (ce : CEnv) (place : Bytes → Loc) (p : PyState) (H : List (PyOp × PyOutcome)) (evs : List Event) : Prop where
  opened : ∀ (k : Nat) (x : WriterObj) (a : Addr) (b : WriterBox), p.writers[k]? = some x → x.inst = some a → x.held = true →
    find a p.mem.writers = some b → ∃ f i pieces, (.newWriter f i, .ok k) ∈ H ∧ Works k (place (cText f)) pieces evs
      ∧ pieces.flatten = b.writer.io.out.bytes
  unused : ∀ k, p.writers.length ≤ k → eventsOf k evs = []
  creates : ∀ k l, .create k l ∈ evs → ∃ f i, (.newWriter f i, .ok k) ∈ H ∧ place (cText f) = l
  one : ∀ k f i g j, (.newWriter f i, .ok k) ∈ H → (.newWriter g j, .ok k) ∈ H → f = g ∧ i = j
  made : ∀ k f i, (.newWriter f i, .ok k) ∈ H → k < p.writers.length
  closed : ∀ k r, (.close k, .ok r) ∈ H → ∃ f i d m ms s pieces, (.newWriter f i, .ok k) ∈ H ∧ MadeSchema H i d m ms
    ∧ session ce.env [(cText d, [(cText m, ms)])] (pyWrites k H) = some s
    ∧ Works k (place (cText f)) pieces evs ∧ pieces.flatten = s.file

theorem pdisk_start : PDisk ce place start [] [] := by
  refine ⟨?_, fun _ _ => rfl, ?_, ?_, ?_, ?_⟩
  all_goals simp [start]

theorem mem_note {x y : PyOp × PyOutcome} (h : x ∈ H ++ [y]) : x ∈ H ∨ x = y := by
  rcases List.mem_append.1 h with h | h
  · exact .inl h
  · exact .inr (List.mem_singleton.1 h)

theorem eventsOf_ne {k j : Nat} {evs : List Event} (hj : j ≠ k) (h : ∀ e ∈ evs, e.who = k) : eventsOf j evs = [] := by
  rw [eventsOf, List.filter_eq_nil_iff]
  intro e he hd
  exact hj ((of_decide_eq_true hd).symm.trans (h e he))

theorem pdisk_step {evs : List Event} {c : PyOp} {o : PyOutcome} (pd : PDisk ce place p H evs) (inv : PInv ce p H)
    (ho : o ≠ .abort ∧ o ≠ .ub) (h : step ce p c = (o, p')) :
    PDisk ce place p' (H ++ [(c, o)]) (evs ++ stepEvents place p c o p') := by
  have old : ∀ k, (∃ x, p.writers[k]? = some x ∧ x.inst = none) → pyWrites k [(c, o)] = [] → eventsOf k (stepEvents place p c o p') = [] →
      ∀ r, (.close k, .ok r) ∈ H → ∃ f i d m ms s pieces, (.newWriter f i, .ok k) ∈ H ++ [(c, o)] ∧ MadeSchema (H ++ [(c, o)]) i d m ms
    ∧ session ce.env [(cText d, [(cText m, ms)])] (pyWrites k (H ++ [(c, o)])) = some s
    ∧ Works k (place (cText f)) pieces (evs ++ stepEvents place p c o p') ∧ pieces.flatten = s.file := by
    intro k _ h1 h2 r hm
    obtain ⟨f, i, d, m, ms, s, pieces, g1, g2, g3, g4, g5⟩ := pd.closed k r hm
    exact ⟨f, i, d, m, ms, s, pieces, List.mem_append_left _ g1, g2.mono _, by rw [pyWrites_append, h1, List.append_nil]; exact g3,
      works_same g4 h2, g5⟩
  have nonew : (∀ f i, c ≠ .newWriter f i) → ∀ k f i, (.newWriter f i, .ok k) ∈ H ++ [(c, o)] → (.newWriter f i, .ok k) ∈ H := by
    intro hc k f i hm
    rcases mem_note hm with hm | hm
    · exact hm
    · exact absurd (congrArg Prod.fst hm).symm (hc f i)
  cases pdid inv ho h with
  | idle he hw hk hl hc hx =>
    have hnew : ∀ k f i, (.newWriter f i, .ok k) ∈ H ++ [(c, o)] → (.newWriter f i, .ok k) ∈ H := by
      intro k f i hm
      rcases mem_note hm with hm | hm
      · exact hm
      · have := he place
        obtain ⟨rfl, rfl⟩ := Prod.mk.inj hm
        cases this
    rw [he place] at old ⊢
    rw [List.append_nil] at old ⊢
    refine ⟨fun k x a b h1 h2 h3 h4 => ?_, fun k hle => pd.unused k (by rw [← hl]; exact hle), fun k l hm => ?_, fun k f i g j h1 h2 => ?_,
      fun k f i hm => by rw [hl]; exact pd.made k f i (hnew _ _ _ hm), fun k r hm => ?_⟩
    · rw [hw] at h4
      obtain ⟨f, i, pieces, g1, g2⟩ := pd.opened k x a b (hk k x h1 h3) h2 h3 h4
      exact ⟨f, i, pieces, List.mem_append_left _ g1, g2⟩
    · obtain ⟨f, i, g1, g2⟩ := pd.creates k l hm
      exact ⟨f, i, List.mem_append_left _ g1, g2⟩
    · exact pd.one k f i g j (hnew _ _ _ h1) (hnew _ _ _ h2)
    · rcases mem_note hm with hm | hm
      · exact old k (inv.closed k r hm).1 (hx k) rfl r hm
      · exact absurd hm.symm (hc k r)
  | opened f i a b hcc ho' ha hw hp =>
    subst hcc ho'
    have hout : outOf p' p.writers.length = b.writer.io.out.bytes := by
      rw [outOf, hp, List.getElem?_append_right (Nat.le_refl _), Nat.sub_self]
      simp only [List.getElem?_cons_zero, hw, find_cons, if_pos]
    have he : stepEvents place p (.newWriter f i) (.ok p.writers.length) p'
        = [.create p.writers.length (place (cText f)), .write p.writers.length b.writer.io.out.bytes] := by
      rw [← hout]; rfl
    have hne : ∀ k, k ≠ p.writers.length → eventsOf k (stepEvents place p (.newWriter f i) (.ok p.writers.length) p') = [] := by
      intro k hk
      refine eventsOf_ne hk (fun e hm => ?_)
      rw [he] at hm
      simp only [List.mem_cons, List.not_mem_nil, or_false] at hm
      rcases hm with rfl | rfl <;> rfl
    have hlen : p'.writers.length = p.writers.length + 1 := by rw [hp]; simp
    refine ⟨fun k x a' b' h1 h2 h3 h4 => ?_, fun k hle => ?_, fun k l hm => ?_, fun k f1 i1 f2 i2 h1 h2 => ?_,
      fun k f' i' hm => ?_, fun k r hm => ?_⟩
    · by_cases hk : k = p.writers.length
      · subst hk
        rw [hp, List.getElem?_append_right (Nat.le_refl _), Nat.sub_self, List.getElem?_cons_zero] at h1
        obtain rfl := Option.some.inj h1
        obtain rfl := Option.some.inj h2
        rw [hw, find_cons, if_pos rfl] at h4
        obtain rfl := Option.some.inj h4
        refine ⟨f, i, [b.writer.io.out.bytes], List.mem_append_right _ (List.mem_singleton.2 rfl), ?_, by simp⟩
        rw [Works, eventsOf_append, pd.unused _ (Nat.le_refl _), he]
        simp [eventsOf, Event.who]
      · have hlt : k < p.writers.length := by
          have := (List.getElem?_eq_some_iff.1 h1).1
          omega
        rw [hp, List.getElem?_append_left hlt] at h1
        rw [hw, find_cons, if_neg (fun e => Nat.lt_irrefl _ (Nat.lt_of_lt_of_le (inv.wriLt k x a' h1 h2).2 (by rw [← e]; exact ha)))] at h4
        obtain ⟨f', i', pieces, g1, g2, g3⟩ := pd.opened k x a' b' h1 h2 h3 h4
        exact ⟨f', i', pieces, List.mem_append_left _ g1, works_same g2 (hne k hk), g3⟩
    · rw [hlen] at hle
      rw [eventsOf_append, pd.unused k (by omega), hne k (by omega)]
      rfl
    · rcases List.mem_append.1 hm with hm | hm
      · obtain ⟨f', i', g1, g2⟩ := pd.creates k l hm
        exact ⟨f', i', List.mem_append_left _ g1, g2⟩
      · rw [he] at hm
        simp only [List.mem_cons, List.not_mem_nil, or_false, Event.create.injEq, reduceCtorEq] at hm
        obtain ⟨rfl, rfl⟩ := hm
        exact ⟨f, i, List.mem_append_right _ (List.mem_singleton.2 rfl), rfl⟩
    · rcases mem_note h1 with h1 | h1 <;> rcases mem_note h2 with h2 | h2
      · exact pd.one k _ _ _ _ h1 h2
      · cases h2
        exact absurd (pd.made _ _ _ h1) (Nat.lt_irrefl _)
      · cases h1
        exact absurd (pd.made _ _ _ h2) (Nat.lt_irrefl _)
      · cases h1
        cases h2
        exact ⟨rfl, rfl⟩
    · rw [hlen]
      rcases mem_note hm with hm | hm
      · exact Nat.lt_succ_of_lt (pd.made _ _ _ hm)
      · cases hm
        exact Nat.lt_succ_self _
    · rcases mem_note hm with hm | hm
      · obtain ⟨x, hx, -⟩ := (inv.closed k r hm).1
        have := (List.getElem?_eq_some_iff.1 hx).1
        exact old k (inv.closed k r hm).1 rfl (hne k (by omega)) r hm
      · cases hm
  | wrote k0 d m t v n x a b b' hcc ho' hk hi hh hb hw hp hpre =>
    subst hcc ho'
    have hout : outOf p k0 = b.writer.io.out.bytes := by
      obtain ⟨xs, xi, xh⟩ := x
      obtain rfl : xi = some a := hi
      rw [outOf, hk]
      simp only [hb]
    have hout' : outOf p' k0 = b'.writer.io.out.bytes := by
      obtain ⟨xs, xi, xh⟩ := x
      obtain rfl : xi = some a := hi
      rw [outOf, hp, hk]
      simp only [hw, find_cons, if_pos]
    have he : stepEvents place p (.writeInt k0 d m t v) (.ok n) p'
        = [.write k0 (b'.writer.io.out.bytes.drop b.writer.io.out.bytes.length)] := by
      rw [← hout, ← hout']; rfl
    have hne : ∀ k, k ≠ k0 → eventsOf k (stepEvents place p (.writeInt k0 d m t v) (.ok n) p') = [] := by
      intro k hk
      refine eventsOf_ne hk (fun e hm => ?_)
      rw [he] at hm
      obtain rfl := List.mem_singleton.1 hm
      rfl
    have hnew := nonew (by simp)
    refine ⟨fun k y a' c h1 h2 h3 h4 => ?_, fun k hle => ?_, fun k l hm => ?_, fun k f i g j h1 h2 => ?_,
      fun k f i hm => by rw [hp]; exact pd.made k f i (hnew _ _ _ hm), fun k r hm => ?_⟩
    · rw [hp] at h1
      by_cases hk' : k = k0
      · subst hk'
        rw [hk] at h1
        obtain rfl := Option.some.inj h1
        rw [hi] at h2
        obtain rfl := Option.some.inj h2
        rw [hw, find_cons, if_pos rfl] at h4
        obtain rfl := Option.some.inj h4
        obtain ⟨f, i, pieces, g1, g2, g3⟩ := pd.opened k x a b hk hi hh hb
        refine ⟨f, i, pieces ++ [b'.writer.io.out.bytes.drop b.writer.io.out.bytes.length], List.mem_append_left _ g1, ?_, ?_⟩
        · refine works_append g2 ?_
          rw [he]
          simp [eventsOf, Event.who]
        · rw [List.flatten_append, g3, List.flatten_singleton]
          exact drop_of_prefix hpre
      · have hne' : a ≠ a' := fun e => hk' (inv.wriOne k k0 y x a h1 hk (by rw [h2, e]) hi)
        rw [hw, find_cons, if_neg hne', find_release, if_neg (Ne.symm hne')] at h4
        obtain ⟨f, i, pieces, g1, g2, g3⟩ := pd.opened k y a' c h1 h2 h3 h4
        exact ⟨f, i, pieces, List.mem_append_left _ g1, works_same g2 (hne k hk'), g3⟩
    · rw [hp] at hle
      have := (List.getElem?_eq_some_iff.1 hk).1
      rw [eventsOf_append, pd.unused k hle, hne k (by omega)]
      rfl
    · rcases List.mem_append.1 hm with hm | hm
      · obtain ⟨f, i, g1, g2⟩ := pd.creates k l hm
        exact ⟨f, i, List.mem_append_left _ g1, g2⟩
      · rw [he] at hm
        cases List.mem_singleton.1 hm
    · exact pd.one k f i g j (hnew _ _ _ h1) (hnew _ _ _ h2)
    · rcases mem_note hm with hm | hm
      · have hcl := (inv.closed k r hm).1
        have hk' : k ≠ k0 := by
          rintro rfl
          obtain ⟨y, g1, g2⟩ := hcl
          rw [hk] at g1
          obtain rfl := Option.some.inj g1
          rw [hi] at g2
          cases g2
        exact old k hcl (by rw [pyWrites, if_neg (Ne.symm hk'), pyWrites]) (hne k hk') r hm
      · cases hm
  | closed k0 n x a b w' hcc ho' hk hi hh hb hcl hw hf hp =>
    subst hcc ho'
    have hout : outOf p k0 = b.writer.io.out.bytes := by
      obtain ⟨xs, xi, xh⟩ := x
      obtain rfl : xi = some a := hi
      rw [outOf, hk]
      simp only [hb]
    have he : stepEvents place p (.close k0) (.ok n) p' = [.write k0 (w'.io.out.bytes.drop b.writer.io.out.bytes.length)] := by
      rw [← hout, stepEvents, hf]
    have hne : ∀ k, k ≠ k0 → eventsOf k (stepEvents place p (.close k0) (.ok n) p') = [] := by
      intro k hk
      refine eventsOf_ne hk (fun e hm => ?_)
      rw [he] at hm
      obtain rfl := List.mem_singleton.1 hm
      rfl
    have hnew := nonew (by simp)
    refine ⟨fun k y a' c h1 h2 h3 h4 => ?_, fun k hle => ?_, fun k l hm => ?_, fun k f i g j h1 h2 => ?_,
      fun k f i hm => by rw [hp, List.length_set]; exact pd.made k f i (hnew _ _ _ hm), fun k r hm => ?_⟩
    · rw [hp] at h1
      rcases getElem?_set_cases h1 with ⟨hk', h1⟩ | ⟨-, rfl, -⟩
      · have hne' : a ≠ a' := fun e => hk' (inv.wriOne k k0 y x a h1 hk (by rw [h2, e]) hi)
        rw [hw, find_release, if_neg (Ne.symm hne')] at h4
        obtain ⟨f, i, pieces, g1, g2, g3⟩ := pd.opened k y a' c h1 h2 h3 h4
        exact ⟨f, i, pieces, List.mem_append_left _ g1, works_same g2 (hne k hk'), g3⟩
      · cases h2
    · rw [hp, List.length_set] at hle
      have := (List.getElem?_eq_some_iff.1 hk).1
      rw [eventsOf_append, pd.unused k hle, hne k (by omega)]
      rfl
    · rcases List.mem_append.1 hm with hm | hm
      · obtain ⟨f, i, g1, g2⟩ := pd.creates k l hm
        exact ⟨f, i, List.mem_append_left _ g1, g2⟩
      · rw [he] at hm
        cases List.mem_singleton.1 hm
    · exact pd.one k f i g j (hnew _ _ _ h1) (hnew _ _ _ h2)
    · rcases mem_note hm with hm | hm
      · have hcl := (inv.closed k r hm).1
        have hk' : k ≠ k0 := by
          rintro rfl
          obtain ⟨y, g1, g2⟩ := hcl
          rw [hk] at g1
          obtain rfl := Option.some.inj g1
          rw [hi] at g2
          cases g2
        exact old k hcl rfl (hne k hk') r hm
      · obtain ⟨e1, e2⟩ := Prod.mk.inj hm
        obtain rfl : k = k0 := PyOp.close.inj e1
        obtain rfl : r = n := PyOutcome.ok.inj e2
        obtain ⟨s, b1, -, q2, -, f, d, m, ms, w0, q3, q4, -, q6, q7, q8⟩ := inv.wri k x a hk hi hh
        rw [hb] at q2
        obtain rfl := Option.some.inj q2
        obtain ⟨f', i', pieces, g1, g2, g3⟩ := pd.opened k x a b hk hi hh hb
        obtain ⟨rfl, rfl⟩ := pd.one k _ _ _ _ q3 g1
        refine ⟨f, x.schema, d, m, ms,
          ⟨(w0.run ce.env (pyWrites k H)).2, w0.grown ce.env (pyWrites k H),
            w'.io.out.bytes.length - (w0.run ce.env (pyWrites k H)).1.io.out.bytes.length, w'.io.out.bytes⟩,
          pieces ++ [w'.io.out.bytes.drop b.writer.io.out.bytes.length], List.mem_append_left _ q3, q4.mono _, ?_, ?_, ?_⟩
        · rw [pyWrites_append, show pyWrites k [(PyOp.close k, PyOutcome.ok r)] = [] from rfl, List.append_nil, session, q6]
          dsimp only
          rw [if_neg (fun h => by have := q8 _ h; cases this), q7, hcl]
        · refine works_append g2 ?_
          rw [he]
          simp [eventsOf, Event.who]
        · rw [List.flatten_append, g3, List.flatten_singleton]
          exact drop_of_prefix (Grows.close ce.env _ hcl).pre

/-- A step that ended the process. -/
theorem pdisk_end {evs : List Event} {c : PyOp} {o : PyOutcome} (pd : PDisk ce place p H evs) (ho : ∀ n, o ≠ .ok n) :
    PDisk ce place p (H ++ [(c, o)]) evs := by
  have hnew : ∀ k f i, (.newWriter f i, .ok k) ∈ H ++ [(c, o)] → (.newWriter f i, .ok k) ∈ H := by
    intro k f i hm
    rcases mem_note hm with hm | hm
    · exact hm
    · exact absurd (congrArg Prod.snd hm).symm (ho k)
  refine ⟨fun k x a b h1 h2 h3 h4 => ?_, pd.unused, fun k l hm => ?_, fun k f i g j h1 h2 => ?_, fun k f i hm => pd.made k f i (hnew _ _ _ hm),
    fun k r hm => ?_⟩
  · obtain ⟨f, i, pieces, g1, g2⟩ := pd.opened k x a b h1 h2 h3 h4
    exact ⟨f, i, pieces, List.mem_append_left _ g1, g2⟩
  · obtain ⟨f, i, g1, g2⟩ := pd.creates k l hm
    exact ⟨f, i, List.mem_append_left _ g1, g2⟩
  · exact pd.one k f i g j (hnew _ _ _ h1) (hnew _ _ _ h2)
  · rcases mem_note hm with hm | hm
    · obtain ⟨f, i, d, m, ms, s, pieces, g1, g2, g3, g4, g5⟩ := pd.closed k r hm
      have : pyWrites k [(c, o)] = [] := by
        cases o with
        | ok n => exact absurd rfl (ho n)
        | _ => cases c <;> rfl
      exact ⟨f, i, d, m, ms, s, pieces, List.mem_append_left _ g1, g2.mono _, by rw [pyWrites_append, this, List.append_nil]; exact g3, g4, g5⟩
    · exact absurd (congrArg Prod.snd hm).symm (ho r)

theorem pdisk_run (cs : List PyOp) : ∀ (p : PyState) (H : List (PyOp × PyOutcome)) (evs : List Event), PDisk ce place p H evs →
    PInv ce p H → ∃ p', PDisk ce place p' (H ++ cs.zip (run ce p cs).1) (evs ++ diskEvents place ce p cs) := by
  induction cs with
  | nil => intro p H evs pd _; exact ⟨p, by simpa [diskEvents] using pd⟩
  | cons c cs ih =>
    intro p H evs pd inv
    have h1 := fine_step inv c
    rw [run, diskEvents]
    rcases hs : step ce p c with ⟨o, p'⟩
    rw [hs] at h1
    have go : o ≠ .abort ∧ o ≠ .ub → ∃ q, PDisk ce place q (H ++ (c :: cs).zip (o :: (run ce p' cs).1))
        (evs ++ (stepEvents place p c o p' ++ diskEvents place ce p' cs)) := by
      intro ho
      obtain ⟨q, h2⟩ := ih p' _ _ (pdisk_step pd inv ho hs) (h1.2.1 ho.1)
      refine ⟨q, ?_⟩
      rw [List.append_assoc, List.append_assoc] at h2
      exact h2
    cases o with
    | ok r => exact go (by simp)
    | raises => exact go (by simp)
    | abort =>
      dsimp only
      rw [List.zip_cons_cons, List.zip_nil_right, List.append_nil]
      exact ⟨p, pdisk_end pd (by simp)⟩
    | ub =>
      dsimp only
      rw [List.zip_cons_cons, List.zip_nil_right, List.append_nil]
      exact ⟨p, pdisk_end pd (by simp)⟩

end TsFile.Py
