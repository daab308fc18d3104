import Verif.Spec.Python
import Verif.Proofs.CSession
/-! # The Python classes: invariants -/

namespace TsFile.Py
open Spec CApi

theorem cText_eq (s : Bytes) : cText s = beforeNul s := by
  unfold cText
  induction s with
  | nil => rfl
  | cons c s ih =>
    rw [List.takeWhile_cons, beforeNul]
    by_cases h : c = 0
    · subst h; rfl
    · rw [if_neg h, if_pos (by simpa using h), ih]

theorem cInt_some {x : Int} {w : W32} (h : cInt x = some w) : isCInt x ∧ w = BitVec.ofInt 32 x := by
  unfold cInt at h
  split at h
  · next h' => exact ⟨h', (Option.some.inj h).symm⟩
  · cases h

theorem cInt_isSome {x : Int} (h : isCInt x) : cInt x = some (BitVec.ofInt 32 x) := if_pos h

theorem cInt_none {x : Int} (h : cInt x = none) : ¬ isCInt x := by
  intro h'
  rw [cInt_isSome h'] at h
  cases h

theorem low_ofInt (x : Int) : low (BitVec.ofInt 32 x) = UInt8.ofNat (x % 256).toNat := by
  unfold low
  apply UInt8.toNat_inj.1
  simp only [UInt8.toNat_ofNat', BitVec.toNat_ofInt]
  omega

theorem signExtend_ofInt {x : Int} (h : isCInt x) : (BitVec.ofInt 32 x).signExtend 64 = BitVec.ofInt 64 x := by
  apply BitVec.eq_of_toInt_eq
  rw [BitVec.toInt_signExtend_of_le (by omega), BitVec.toInt_ofInt, BitVec.toInt_ofInt, Int.bmod_def, Int.bmod_def]
  have := h.1
  have := h.2
  split <;> split <;> omega

theorem pyWrites_append (k : Nat) (H : List (PyOp × PyOutcome)) (x : PyOp × PyOutcome) :
    pyWrites k (H ++ [x]) = pyWrites k H ++ pyWrites k [x] := by
  induction H with
  | nil => rfl
  | cons y H ih =>
    obtain ⟨c, o⟩ := y
    rw [List.cons_append]
    cases c with
    | writeInt w d m t v =>
      cases o with
      | ok n =>
        rw [pyWrites, pyWrites]
        by_cases h : w = k
        · rw [if_pos h, if_pos h, ih]; rfl
        · rw [if_neg h, if_neg h, ih]
      | _ => exact ih
    | _ => cases o <;> exact ih

theorem _root_.TsFile.Spec.MadeSchema.mono {H : List (PyOp × PyOutcome)} {i : Nat} {d m : Bytes} {ms : MeasurementSchema} (h : MadeSchema H i d m ms)
    (x : PyOp × PyOutcome) : MadeSchema (H ++ [x]) i d m ms := by
  obtain ⟨a, b, c, h1, h2⟩ := h
  exact ⟨a, b, c, List.mem_append_left _ h1, h2⟩

/-- The addresses of a holder are those of strings that are there. -/
def HolderOk (mem : State) (h : Holder) : Prop :=
  ∀ e ∈ h, 0 < e.2 ∧ e.2 < mem.next ∧ find e.2 mem.strings = some (cText e.1)

/-- The writer behind a writer object is that of a session. -/
def PRunning (ce : CEnv) (H : List (PyOp × PyOutcome)) (k i : Nat) (b : WriterBox) : Prop :=
  ∃ f d m ms w0, (.newWriter f i, .ok k) ∈ H ∧ MadeSchema H i d m ms ∧ b.filename = cText f
    ∧ Writer.new ce.env [(cText d, [(cText m, ms)])] { bytes := [], cap := none } = .ok w0
    ∧ (w0.run ce.env (pyWrites k H)).1 = b.writer ∧ ∀ r ∈ (w0.run ce.env (pyWrites k H)).2, r = .ok ()

/-- The file of a closed writer object is that of a session. -/
def PDone (ce : CEnv) (files : List (Bytes × Bytes)) (H : List (PyOp × PyOutcome)) (k : Nat) : Prop :=
  ∃ f i d m ms s, (.newWriter f i, .ok k) ∈ H ∧ MadeSchema H i d m ms
    ∧ session ce.env [(cText d, [(cText m, ms)])] (pyWrites k H) = some s ∧ (∀ r ∈ s.results, r = .ok ())
    ∧ (cText f, s.file) ∈ files

/-- The invariant. -/
structure PInv (ce : CEnv) (p : PyState) (H : List (PyOp × PyOutcome)) : Prop where
  next : 0 < p.mem.next
  hold : ∀ (i : Nat) (s : SchemaObj), p.schemas[i]? = some s → HolderOk p.mem s.holder
  disj : ∀ (i j : Nat) (s t : SchemaObj), p.schemas[i]? = some s → p.schemas[j]? = some t → i ≠ j → ∀ e ∈ s.holder, ∀ f ∈ t.holder, e.2 ≠ f.2
  schLt : ∀ (i : Nat) (s : SchemaObj) (a : Addr), p.schemas[i]? = some s → s.inst = some a → 0 < a ∧ a < p.mem.next
  sch : ∀ (i : Nat) (s : SchemaObj) (a : Addr), p.schemas[i]? = some s → s.inst = some a → s.held = true → ∃ box d m, find a p.mem.schemas = some box
    ∧ (d, box.device) ∈ s.holder ∧ (m, box.measurement) ∈ s.holder
    ∧ MadeSchema H i d m ⟨box.dataType, box.encoding, box.compression⟩
  schOne : ∀ (i j : Nat) (s t : SchemaObj) (a : Addr), p.schemas[i]? = some s → p.schemas[j]? = some t → s.inst = some a → t.inst = some a → i = j
  wriLt : ∀ (k : Nat) (o : WriterObj) (a : Addr), p.writers[k]? = some o → o.inst = some a → 0 < a ∧ a < p.mem.next
  wriSch : ∀ (k : Nat) (o : WriterObj), p.writers[k]? = some o → ∃ s, p.schemas[o.schema]? = some s
  wri : ∀ (k : Nat) (o : WriterObj) (a : Addr), p.writers[k]? = some o → o.inst = some a → o.held = true → ∃ s b, p.schemas[o.schema]? = some s
    ∧ find a p.mem.writers = some b ∧ (∀ x ∈ b.borrowed, ∃ t, (t, x) ∈ s.holder) ∧ PRunning ce H k o.schema b
  wriOne : ∀ (k l : Nat) (o q : WriterObj) (a : Addr), p.writers[k]? = some o → p.writers[l]? = some q → o.inst = some a → q.inst = some a → k = l
  unused : ∀ k, p.writers.length ≤ k → pyWrites k H = []
  closed : ∀ k r, (.close k, .ok r) ∈ H → (∃ o, p.writers[k]? = some o ∧ o.inst = none) ∧ PDone ce p.mem.files H k

variable {ce : CEnv} {p : PyState} {H : List (PyOp × PyOutcome)}

theorem pinv_start (ce : CEnv) : PInv ce start [] := by
  refine ⟨by decide, ?_, ?_, ?_, ?_, ?_, ?_, ?_, ?_, ?_, fun _ _ => rfl, ?_⟩
  all_goals simp [start]

/-- A step that writes and closes nothing. -/
theorem PInv.note (h : PInv ce p H) (x : PyOp × PyOutcome) (hx : ∀ k, pyWrites k [x] = [])
    (hc : ∀ k r, x ≠ (.close k, .ok r)) : PInv ce p (H ++ [x]) := by
  refine { h with sch := ?_, wri := ?_, unused := ?_, closed := ?_ }
  · intro i s a h1 h2 h3
    obtain ⟨box, d, m, g1, g2, g3, g4⟩ := h.sch i s a h1 h2 h3
    exact ⟨box, d, m, g1, g2, g3, g4.mono x⟩
  · intro k o a h1 h2 h3
    obtain ⟨s, b, g1, g2, g3, f, d, m, ms, w0, g4, g5, g6, g7, g8, g9⟩ := h.wri k o a h1 h2 h3
    refine ⟨s, b, g1, g2, g3, f, d, m, ms, w0, List.mem_append_left _ g4, g5.mono x, g6, g7, ?_, ?_⟩
    · rw [pyWrites_append, hx, List.append_nil]; exact g8
    · rw [pyWrites_append, hx, List.append_nil]; exact g9
  · intro k hk
    rw [pyWrites_append, hx, List.append_nil]
    exact h.unused k hk
  · intro k r hm
    rcases List.mem_append.1 hm with hm | hm
    · obtain ⟨g1, f, i, d, m, ms, s, g2, g3, g4, g5, g6⟩ := h.closed k r hm
      exact ⟨g1, f, i, d, m, ms, s, List.mem_append_left _ g2, g3.mono x,
        by rw [pyWrites_append, hx, List.append_nil]; exact g4, g5, g6⟩
    · exact absurd (List.mem_singleton.1 hm).symm (hc k r)

/-- The memory keeps everything at the old addresses. -/
structure Keeps (m m' : State) : Prop where
  next : m.next ≤ m'.next
  strings : ∀ a, a < m.next → find a m'.strings = find a m.strings
  schemas : ∀ a, a < m.next → find a m'.schemas = find a m.schemas
  writers : ∀ a, a < m.next → find a m'.writers = find a m.writers
  files : m'.files = m.files

theorem Keeps.refl (m : State) : Keeps m m := ⟨Nat.le_refl _, fun _ _ => rfl, fun _ _ => rfl, fun _ _ => rfl, rfl⟩

theorem Keeps.trans {a b c : State} (h : Keeps a b) (g : Keeps b c) : Keeps a c :=
  ⟨Nat.le_trans h.next g.next,
   fun x hx => (g.strings x (Nat.lt_of_lt_of_le hx h.next)).trans (h.strings x hx),
   fun x hx => (g.schemas x (Nat.lt_of_lt_of_le hx h.next)).trans (h.schemas x hx),
   fun x hx => (g.writers x (Nat.lt_of_lt_of_le hx h.next)).trans (h.writers x hx),
   g.files.trans h.files⟩

theorem HolderOk.keeps {m m' : State} {h : Holder} (hk : Keeps m m') (hh : HolderOk m h) : HolderOk m' h := by
  intro e he
  obtain ⟨h1, h2, h3⟩ := hh e he
  exact ⟨h1, Nat.lt_of_lt_of_le h2 hk.next, by rw [hk.strings _ h2]; exact h3⟩

theorem PInv.mem (h : PInv ce p H) {m' : State} (hk : Keeps p.mem m') : PInv ce { p with mem := m' } H := by
  refine ⟨Nat.lt_of_lt_of_le h.next hk.next, fun i s hs => (h.hold i s hs).keeps hk, h.disj, ?_, ?_, h.schOne, ?_, h.wriSch, ?_,
    h.wriOne, h.unused, ?_⟩
  · intro i s a h1 h2
    have := h.schLt i s a h1 h2
    exact ⟨this.1, Nat.lt_of_lt_of_le this.2 hk.next⟩
  · intro i s a h1 h2 h3
    obtain ⟨box, d, m, g1, g2⟩ := h.sch i s a h1 h2 h3
    exact ⟨box, d, m, by rw [hk.schemas _ (h.schLt i s a h1 h2).2]; exact g1, g2⟩
  · intro k o a h1 h2
    have := h.wriLt k o a h1 h2
    exact ⟨this.1, Nat.lt_of_lt_of_le this.2 hk.next⟩
  · intro k o a h1 h2 h3
    obtain ⟨s, b, g1, g2, g3⟩ := h.wri k o a h1 h2 h3
    exact ⟨s, b, g1, by rw [hk.writers _ (h.wriLt k o a h1 h2).2]; exact g2, g3⟩
  · intro k r hm
    have := h.closed k r hm
    rw [← hk.files] at this
    exact this

/-- What `get` does. -/
structure GotIt (m : State) (h : Holder) (s : Bytes) (r : State × Holder × Addr) : Prop where
  keeps : Keeps m r.1
  mem : (s, r.2.2) ∈ r.2.1
  old : ∀ e ∈ h, e ∈ r.2.1
  new : ∀ e ∈ r.2.1, e ∈ h ∨ m.next ≤ e.2
  ok : HolderOk r.1 r.2.1

theorem lookup_mem {s : Bytes} {h : Holder} {a : Addr} (hl : lookup s h = some a) : (s, a) ∈ h := by
  induction h with
  | nil => cases hl
  | cons e h ih =>
    rw [lookup] at hl
    by_cases he : e.1 = s
    · rw [if_pos he] at hl
      obtain rfl := Option.some.inj hl
      rw [← he]
      exact List.mem_cons_self ..
    · rw [if_neg he] at hl
      exact List.mem_cons_of_mem _ (ih hl)

theorem get_ok {m : State} (hn : 0 < m.next) {h : Holder} (hh : HolderOk m h) (s : Bytes) : GotIt m h s (get ce m h s) := by
  unfold get
  cases hl : lookup s h with
  | some a => exact ⟨Keeps.refl m, lookup_mem hl, fun _ he => he, fun _ he => Or.inl he, hh⟩
  | none =>
    have hk : Keeps m { m with strings := (m.next, cText s) :: m.strings, next := m.next + 1 } := by
      refine ⟨Nat.le_succ _, ?_, fun _ _ => rfl, fun _ _ => rfl, rfl⟩
      intro a ha
      rw [find_cons, if_neg (Nat.ne_of_gt ha)]
    refine ⟨hk, List.mem_cons_self .., fun e he => List.mem_cons_of_mem _ he, ?_, ?_⟩
    · intro e he
      rcases List.mem_cons.1 he with rfl | he
      · exact Or.inr (Nat.le_refl _)
      · exact Or.inl he
    · intro e he
      rcases List.mem_cons.1 he with rfl | he
      · exact ⟨hn, Nat.lt_succ_self _, (find_cons m.next m.next (cText s) m.strings).trans (if_pos rfl)⟩
      · exact hh.keeps hk e he

/-- A new schema object. -/
theorem PInv.pushSchema (h : PInv ce p H) {o : SchemaObj} {a : Addr} {box : SchemaBox} {d m : Bytes} (hok : HolderOk p.mem o.holder)
    (hd : ∀ (i : Nat) (s : SchemaObj), p.schemas[i]? = some s → ∀ e ∈ s.holder, ∀ f ∈ o.holder, e.2 ≠ f.2) (hi : o.inst = some a)
    (ha : 0 < a ∧ a < p.mem.next) (hf : find a p.mem.schemas = some box) (h1 : (d, box.device) ∈ o.holder)
    (h2 : (m, box.measurement) ∈ o.holder) (hone : ∀ (i : Nat) (s : SchemaObj), p.schemas[i]? = some s → s.inst ≠ some a)
    (hm : MadeSchema H p.schemas.length d m ⟨box.dataType, box.encoding, box.compression⟩) :
    PInv ce { p with schemas := p.schemas ++ [o] } H := by
  have key : ∀ (i : Nat) (s : SchemaObj), (p.schemas ++ [o])[i]? = some s → p.schemas[i]? = some s ∨ (i = p.schemas.length ∧ s = o) := by
    intro i s hs
    rw [List.getElem?_append] at hs
    split at hs
    · exact Or.inl hs
    · next hlt =>
      right
      have : i - p.schemas.length = 0 := by
        have := (List.getElem?_eq_some_iff.1 hs).1
        simp only [List.length_cons, List.length_nil] at this
        omega
      rw [this] at hs
      exact ⟨by omega, (Option.some.inj hs).symm⟩
  have old : ∀ (i : Nat) (s : SchemaObj), p.schemas[i]? = some s → (p.schemas ++ [o])[i]? = some s := by
    intro i s hs
    rw [List.getElem?_append_left (List.getElem?_eq_some_iff.1 hs).1]
    exact hs
  refine ⟨h.next, ?_, ?_, ?_, ?_, ?_, h.wriLt, ?_, ?_, h.wriOne, h.unused, h.closed⟩
  · intro i s hs
    rcases key i s hs with hs | ⟨_, rfl⟩
    · exact h.hold i s hs
    · exact hok
  · intro i j s t hs ht hij e he f hf'
    rcases key i s hs with hs1 | ⟨e1, rfl⟩ <;> rcases key j t ht with ht1 | ⟨e2, rfl⟩
    · exact h.disj i j s t hs1 ht1 hij e he f hf'
    · exact hd i s hs1 e he f hf'
    · exact fun g => hd j t ht1 f hf' e he g.symm
    · omega
  · intro i s b hs hb
    rcases key i s hs with hs | ⟨_, rfl⟩
    · exact h.schLt i s b hs hb
    · rw [hi] at hb; cases hb; exact ha
  · intro i s b hs hb hh
    rcases key i s hs with hs | ⟨rfl, rfl⟩
    · exact h.sch i s b hs hb hh
    · rw [hi] at hb; cases hb
      exact ⟨box, d, m, hf, h1, h2, hm⟩
  · intro i j s t b hs ht hsb htb
    rcases key i s hs with hs1 | ⟨e1, rfl⟩ <;> rcases key j t ht with ht1 | ⟨e2, rfl⟩
    · exact h.schOne i j s t b hs1 ht1 hsb htb
    · rw [hi] at htb; cases htb; exact absurd hsb (hone i s hs1)
    · rw [hi] at hsb; cases hsb; exact absurd htb (hone j t ht1)
    · omega
  · intro k o' ho
    obtain ⟨s, hs⟩ := h.wriSch k o' ho
    exact ⟨s, old _ _ hs⟩
  · intro k o' b ho hb hh
    obtain ⟨s, c, g1, g2⟩ := h.wri k o' b ho hb hh
    exact ⟨s, c, old _ _ g1, g2⟩

/-- Replacing one schema object. -/
theorem getElem?_set_cases {α : Type} {l : List α} {i j : Nat} {x y : α} (h : (l.set i x)[j]? = some y) :
    (j ≠ i ∧ l[j]? = some y) ∨ (j = i ∧ y = x ∧ ∃ z, l[i]? = some z) := by
  by_cases hij : i = j
  · subst hij
    right
    rw [List.getElem?_set_self'] at h
    cases hz : l[i]? with
    | none => rw [hz] at h; cases h
    | some z =>
      rw [hz] at h
      exact ⟨rfl, (Option.some.inj h).symm, z, rfl⟩
  · rw [List.getElem?_set_ne hij] at h
    exact Or.inl ⟨fun e => hij e.symm, h⟩

theorem getElem?_set_old {α : Type} {l : List α} {i j : Nat} {x y : α} (h : l[j]? = some y) (hij : j ≠ i) :
    (l.set i x)[j]? = some y := by
  rw [List.getElem?_set_ne (fun e => hij e.symm)]
  exact h

theorem getElem?_set_new {α : Type} {l : List α} {i : Nat} {x y : α} (h : l[i]? = some y) : (l.set i x)[i]? = some x := by
  rw [List.getElem?_set_self', h]
  rfl

/-- A larger holder. -/
theorem PInv.holder (h : PInv ce p H) {i : Nat} {s : SchemaObj} {h' : Holder} (hs : p.schemas[i]? = some s)
    (hok : HolderOk p.mem h') (hold : ∀ e ∈ s.holder, e ∈ h')
    (hd : ∀ (j : Nat) (t : SchemaObj), p.schemas[j]? = some t → j ≠ i → ∀ e ∈ t.holder, ∀ f ∈ h', e.2 ≠ f.2) :
    PInv ce { p with schemas := p.schemas.set i { s with holder := h' } } H := by
  refine ⟨h.next, ?_, ?_, ?_, ?_, ?_, h.wriLt, ?_, ?_, h.wriOne, h.unused, h.closed⟩
  · intro j t ht
    rcases getElem?_set_cases ht with ⟨_, ht⟩ | ⟨_, rfl, _⟩
    · exact h.hold j t ht
    · exact hok
  · intro j k t u ht hu hjk e he f hf
    rcases getElem?_set_cases ht with ⟨n1, ht⟩ | ⟨e1, rfl, _⟩ <;> rcases getElem?_set_cases hu with ⟨n2, hu⟩ | ⟨e2, rfl, _⟩
    · exact h.disj j k t u ht hu hjk e he f hf
    · exact hd j t ht n1 e he f hf
    · exact fun g => hd k u hu n2 f hf e he g.symm
    · omega
  · intro j t a ht ha
    rcases getElem?_set_cases ht with ⟨_, ht⟩ | ⟨rfl, rfl, _⟩
    · exact h.schLt j t a ht ha
    · exact h.schLt j s a hs ha
  · intro j t a ht ha hh
    rcases getElem?_set_cases ht with ⟨_, ht⟩ | ⟨rfl, rfl, _⟩
    · exact h.sch j t a ht ha hh
    · obtain ⟨box, d, m, g1, g2, g3, g4⟩ := h.sch j s a hs ha hh
      exact ⟨box, d, m, g1, hold _ g2, hold _ g3, g4⟩
  · intro j k t u a ht hu hta hua
    rcases getElem?_set_cases ht with ⟨n1, ht⟩ | ⟨e1, rfl, _⟩ <;> rcases getElem?_set_cases hu with ⟨n2, hu⟩ | ⟨e2, rfl, _⟩
    · exact h.schOne j k t u a ht hu hta hua
    · rw [e2]; exact h.schOne j i t s a ht hs hta hua
    · rw [e1]; exact h.schOne i k s u a hs hu hta hua
    · omega
  · intro k o ho
    obtain ⟨t, ht⟩ := h.wriSch k o ho
    by_cases hi : o.schema = i
    · exact ⟨_, by rw [hi]; exact getElem?_set_new hs⟩
    · exact ⟨t, getElem?_set_old ht hi⟩
  · intro k o a ho ha hh
    obtain ⟨t, b, g1, g2, g3, g4⟩ := h.wri k o a ho ha hh
    by_cases hi : o.schema = i
    · rw [hi, hs] at g1
      obtain rfl := Option.some.inj g1
      refine ⟨{ s with holder := h' }, b, by rw [hi]; exact getElem?_set_new hs, g2, ?_, g4⟩
      intro x hx
      obtain ⟨y, hy⟩ := g3 x hx
      exact ⟨y, hold _ hy⟩
    · exact ⟨t, b, getElem?_set_old g1 hi, g2, g3, g4⟩

/-- A schema handle is given back. -/
theorem PInv.free (h : PInv ce p H) {i : Nat} {s : SchemaObj} {a : Addr} (hs : p.schemas[i]? = some s) (hi : s.inst = some a) :
    PInv ce { p with mem := { p.mem with schemas := release a p.mem.schemas }, schemas := p.schemas.set i { s with inst := none } } H := by
  refine ⟨h.next, ?_, ?_, ?_, ?_, ?_, h.wriLt, ?_, ?_, h.wriOne, h.unused, h.closed⟩
  · intro j t ht
    rcases getElem?_set_cases ht with ⟨_, ht⟩ | ⟨_, rfl, _⟩
    · exact h.hold j t ht
    · exact h.hold i s hs
  · intro j k t u ht hu hjk e he f hf
    rcases getElem?_set_cases ht with ⟨n1, ht⟩ | ⟨e1, rfl, _⟩ <;> rcases getElem?_set_cases hu with ⟨n2, hu⟩ | ⟨e2, rfl, _⟩
    · exact h.disj j k t u ht hu hjk e he f hf
    · exact h.disj j i t s ht hs n1 e he f hf
    · exact h.disj i k s u hs hu (fun e => n2 e.symm) e he f hf
    · omega
  · intro j t b ht hb
    rcases getElem?_set_cases ht with ⟨_, ht⟩ | ⟨rfl, rfl, _⟩
    · exact h.schLt j t b ht hb
    · cases hb
  · intro j t b ht hb hh
    rcases getElem?_set_cases ht with ⟨n1, ht1⟩ | ⟨rfl, rfl, _⟩
    · obtain ⟨box, d, m, g1, g2⟩ := h.sch j t b ht1 hb hh
      refine ⟨box, d, m, ?_, g2⟩
      show find b (release a p.mem.schemas) = _
      rw [find_release, if_neg, g1]
      rintro rfl
      exact n1 (h.schOne j i t s b ht1 hs hb hi)
    · cases hb
  · intro j k t u b ht hu htb hub
    rcases getElem?_set_cases ht with ⟨n1, ht⟩ | ⟨e1, rfl, _⟩ <;> rcases getElem?_set_cases hu with ⟨n2, hu⟩ | ⟨e2, rfl, _⟩
    · exact h.schOne j k t u b ht hu htb hub
    · cases hub
    · cases htb
    · omega
  · intro k o ho
    obtain ⟨t, ht⟩ := h.wriSch k o ho
    by_cases hi : o.schema = i
    · exact ⟨_, by rw [hi]; exact getElem?_set_new hs⟩
    · exact ⟨t, getElem?_set_old ht hi⟩
  · intro k o b ho hb hh
    obtain ⟨t, c, g1, g2, g3, g4⟩ := h.wri k o b ho hb hh
    by_cases hi : o.schema = i
    · rw [hi, hs] at g1
      obtain rfl := Option.some.inj g1
      exact ⟨{ s with inst := none }, c, by rw [hi]; exact getElem?_set_new hs, g2, g3, g4⟩
    · exact ⟨t, c, getElem?_set_old g1 hi, g2, g3, g4⟩

/-- A new writer object. -/
theorem PInv.pushWriter (h : PInv ce p H) {i : Nat} {s : SchemaObj} {a : Addr} {b : WriterBox} (hs : p.schemas[i]? = some s)
    (ha : 0 < a ∧ a < p.mem.next) (hf : find a p.mem.writers = some b) (hb : ∀ x ∈ b.borrowed, ∃ t, (t, x) ∈ s.holder)
    (hone : ∀ (k : Nat) (o : WriterObj), p.writers[k]? = some o → o.inst ≠ some a) (hr : PRunning ce H p.writers.length i b) :
    PInv ce { p with writers := p.writers ++ [⟨i, some a, true⟩] } H := by
  have key : ∀ (k : Nat) (o : WriterObj), (p.writers ++ [⟨i, some a, true⟩])[k]? = some o →
      p.writers[k]? = some o ∨ (k = p.writers.length ∧ o = ⟨i, some a, true⟩) := by
    intro k o ho
    rw [List.getElem?_append] at ho
    split at ho
    · exact Or.inl ho
    · next hlt =>
      right
      have : k - p.writers.length = 0 := by
        have := (List.getElem?_eq_some_iff.1 ho).1
        simp only [List.length_cons, List.length_nil] at this
        omega
      rw [this] at ho
      exact ⟨by omega, (Option.some.inj ho).symm⟩
  refine ⟨h.next, h.hold, h.disj, h.schLt, h.sch, h.schOne, ?_, ?_, ?_, ?_, ?_, ?_⟩
  · intro k o c ho hc
    rcases key k o ho with ho | ⟨_, rfl⟩
    · exact h.wriLt k o c ho hc
    · cases hc; exact ha
  · intro k o ho
    rcases key k o ho with ho | ⟨_, rfl⟩
    · exact h.wriSch k o ho
    · exact ⟨s, hs⟩
  · intro k o c ho hc hh
    rcases key k o ho with ho | ⟨rfl, rfl⟩
    · exact h.wri k o c ho hc hh
    · cases hc
      exact ⟨s, b, hs, hf, hb, hr⟩
  · intro k l o q c ho hq hoc hqc
    rcases key k o ho with ho | ⟨e1, rfl⟩ <;> rcases key l q hq with hq | ⟨e2, rfl⟩
    · exact h.wriOne k l o q c ho hq hoc hqc
    · cases hqc; exact absurd hoc (hone k o ho)
    · cases hoc; exact absurd hqc (hone l q hq)
    · omega
  · intro k hk
    rw [List.length_append] at hk
    exact h.unused k (by omega)
  · intro k r hm
    obtain ⟨⟨o, h1, h2⟩, h3⟩ := h.closed k r hm
    refine ⟨⟨o, ?_, h2⟩, h3⟩
    show (p.writers ++ [⟨i, some a, true⟩])[k]? = some o
    rw [List.getElem?_append_left (List.getElem?_eq_some_iff.1 h1).1]
    exact h1

/-- A point is written. -/
theorem PInv.write (h : PInv ce p H) {k : Nat} {o : WriterObj} {a : Addr} {s : SchemaObj} {b : WriterBox} {w' : Writer}
    {kept : List Addr} {d m : Bytes} {t v : Int} (n : Nat) (ho : p.writers[k]? = some o) (hi : o.inst = some a)
    (hs : p.schemas[o.schema]? = some s) (hf : find a p.mem.writers = some b)
    (hw : b.writer.write ce.env (cText d) (cText m) (BitVec.ofInt 64 t) (.INT (BitVec.ofInt 32 v)) = (w', .ok ()))
    (hkept : ∀ x ∈ kept, ∃ t, (t, x) ∈ s.holder) :
    PInv ce { p with mem := { p.mem with writers := (a, ⟨b.filename, w', kept⟩) :: release a p.mem.writers } }
      (H ++ [(.writeInt k d m t v, .ok n)]) := by
  have hx : ∀ l, l ≠ k → pyWrites l [(PyOp.writeInt k d m t v, PyOutcome.ok n)] = [] := by
    intro l hl
    rw [pyWrites, if_neg (fun e => hl e.symm), pyWrites]
  have hxk : pyWrites k [(PyOp.writeInt k d m t v, PyOutcome.ok n)]
      = [.write (cText d) (cText m) (BitVec.ofInt 64 t) (.INT (BitVec.ofInt 32 v))] := by
    rw [pyWrites, if_pos rfl, pyWrites, cText_eq, cText_eq]
  refine ⟨h.next, h.hold, h.disj, h.schLt, ?_, h.schOne, h.wriLt, h.wriSch, ?_, h.wriOne, ?_, ?_⟩
  · intro i s a h1 h2 h3
    obtain ⟨box, d, m, g1, g2, g3, g4⟩ := h.sch i s a h1 h2 h3
    exact ⟨box, d, m, g1, g2, g3, g4.mono _⟩
  · intro l q c hq hc hh'
    obtain ⟨s', b', g1, g2, g3, f, d', m', ms, w0, g4, g5, g6, g7, g8, g9⟩ := h.wri l q c hq hc hh'
    by_cases hl : l = k
    · subst hl
      rw [ho] at hq
      obtain rfl := Option.some.inj hq
      rw [hi] at hc
      obtain rfl := Option.some.inj hc
      rw [hs] at g1
      obtain rfl := Option.some.inj g1
      rw [hf] at g2
      obtain rfl := Option.some.inj g2
      refine ⟨s, ⟨b.filename, w', kept⟩, hs, ?_, hkept, f, d', m', ms, w0, List.mem_append_left _ g4, g5.mono _, g6, g7, ?_, ?_⟩
      · show find a ((a, _) :: release a p.mem.writers) = _
        rw [find_cons, if_pos rfl]
      · rw [pyWrites_append, hxk, run_snoc, g8]
        show (b.writer.write ce.env _ _ _ _).1 = w'
        rw [hw]
      · rw [pyWrites_append, hxk, run_snoc, g8]
        intro r hr
        rcases List.mem_append.1 hr with hr | hr
        · exact g9 r hr
        · rw [List.mem_singleton.1 hr]
          show (b.writer.write ce.env _ _ _ _).2 = _
          rw [hw]
    · have hca : c ≠ a := by
        rintro rfl
        exact hl (h.wriOne l k q o c hq ho hc hi)
      refine ⟨s', b', g1, ?_, g3, f, d', m', ms, w0, List.mem_append_left _ g4, g5.mono _, g6, g7, ?_, ?_⟩
      · show find c ((a, _) :: release a p.mem.writers) = _
        rw [find_cons, if_neg (fun e => hca e.symm), find_release, if_neg hca]
        exact g2
      · rw [pyWrites_append, hx l hl, List.append_nil]; exact g8
      · rw [pyWrites_append, hx l hl, List.append_nil]; exact g9
  · intro l hl
    have : k < p.writers.length := (List.getElem?_eq_some_iff.1 ho).1
    have hl' : p.writers.length ≤ l := hl
    rw [pyWrites_append, hx l (by omega), List.append_nil]
    exact h.unused l hl
  · intro l r hm
    rcases List.mem_append.1 hm with hm | hm
    · obtain ⟨⟨q, q1, q2⟩, f, i, d', m', ms, s', g2, g3, g4, g5, g6⟩ := h.closed l r hm
      have hl : l ≠ k := by
        rintro rfl
        rw [ho] at q1
        obtain rfl := Option.some.inj q1
        rw [hi] at q2
        cases q2
      exact ⟨⟨q, q1, q2⟩, f, i, d', m', ms, s', List.mem_append_left _ g2, g3.mono _,
        by rw [pyWrites_append, hx l hl, List.append_nil]; exact g4, g5, g6⟩
    · cases List.mem_singleton.1 hm

/-- A writer is closed. -/
theorem PInv.close (h : PInv ce p H) {k : Nat} {o : WriterObj} {a : Addr} {b : WriterBox} {w' : Writer} (n : Nat)
    (ho : p.writers[k]? = some o) (hi : o.inst = some a) (hf : find a p.mem.writers = some b) (hh : o.held = true)
    (hw : b.writer.close ce.env = some w') :
    PInv ce { p with
        mem := { p.mem with writers := release a p.mem.writers, files := (b.filename, w'.io.out.bytes) :: p.mem.files }
        writers := p.writers.set k { o with inst := none } }
      (H ++ [(.close k, .ok n)]) := by
  have hx : ∀ l, pyWrites l [(PyOp.close k, PyOutcome.ok n)] = [] := fun _ => rfl
  refine ⟨h.next, h.hold, h.disj, h.schLt, ?_, h.schOne, ?_, ?_, ?_, ?_, ?_, ?_⟩
  · intro i s a h1 h2 h3
    obtain ⟨box, d, m, g1, g2, g3, g4⟩ := h.sch i s a h1 h2 h3
    exact ⟨box, d, m, g1, g2, g3, g4.mono _⟩
  · intro l q c hq hc
    rcases getElem?_set_cases hq with ⟨_, hq⟩ | ⟨_, rfl, _⟩
    · exact h.wriLt l q c hq hc
    · cases hc
  · intro l q hq
    rcases getElem?_set_cases hq with ⟨_, hq⟩ | ⟨_, rfl, _⟩
    · exact h.wriSch l q hq
    · exact h.wriSch k o ho
  · intro l q c hq hc hh'
    rcases getElem?_set_cases hq with ⟨hl, hq1⟩ | ⟨_, rfl, _⟩
    · obtain ⟨s', b', g1, g2, g3, f, d', m', ms, w0, g4, g5, g6, g7, g8, g9⟩ := h.wri l q c hq1 hc hh'
      have hca : c ≠ a := by
        rintro rfl
        exact hl (h.wriOne l k q o c hq1 ho hc hi)
      refine ⟨s', b', g1, ?_, g3, f, d', m', ms, w0, List.mem_append_left _ g4, g5.mono _, g6, g7, ?_, ?_⟩
      · show find c (release a p.mem.writers) = _
        rw [find_release, if_neg hca]
        exact g2
      · rw [pyWrites_append, hx, List.append_nil]; exact g8
      · rw [pyWrites_append, hx, List.append_nil]; exact g9
    · cases hc
  · intro l l' q q' c hq hq' hc hc'
    rcases getElem?_set_cases hq with ⟨_, hq⟩ | ⟨_, rfl, _⟩
    · rcases getElem?_set_cases hq' with ⟨_, hq'⟩ | ⟨_, rfl, _⟩
      · exact h.wriOne l l' q q' c hq hq' hc hc'
      · cases hc'
    · cases hc
  · intro l hl
    rw [pyWrites_append, hx, List.append_nil]
    exact h.unused l (by simpa using hl)
  · intro l r hm
    have hlk : (.close l, .ok r) ∈ H ∨ l = k := by
      rcases List.mem_append.1 hm with hm | hm
      · exact Or.inl hm
      · have := List.mem_singleton.1 hm
        simp only [Prod.mk.injEq, PyOp.close.injEq] at this
        exact Or.inr this.1
    rcases hlk with hm | rfl
    · obtain ⟨⟨q, q1, q2⟩, f, i, d', m', ms, s', g2, g3, g4, g5, g6⟩ := h.closed l r hm
      have hl : l ≠ k := by
        rintro rfl
        rw [ho] at q1
        obtain rfl := Option.some.inj q1
        rw [hi] at q2
        cases q2
      exact ⟨⟨q, getElem?_set_old q1 hl, q2⟩, f, i, d', m', ms, s', List.mem_append_left _ g2, g3.mono _,
        by rw [pyWrites_append, hx, List.append_nil]; exact g4, g5, List.mem_cons_of_mem _ g6⟩
    · obtain ⟨s', b', g1, g2, g3, f, d', m', ms, w0, g4, g5, g6, g7, g8, g9⟩ := h.wri l o a ho hi hh
      rw [hf] at g2
      obtain rfl := Option.some.inj g2
      refine ⟨⟨_, getElem?_set_new ho, rfl⟩, f, o.schema, d', m', ms,
        ⟨(w0.run ce.env (pyWrites l H)).2, w0.grown ce.env (pyWrites l H),
          w'.io.out.bytes.length - (w0.run ce.env (pyWrites l H)).1.io.out.bytes.length, w'.io.out.bytes⟩,
        List.mem_append_left _ g4, g5.mono _, ?_, g9, ?_⟩
      · rw [pyWrites_append, hx, List.append_nil, session, g7]
        dsimp only
        rw [if_neg (fun hm => by have := g9 _ hm; cases this), g8, hw]
      · rw [← g6]; exact List.mem_cons_self ..

end TsFile.Py
