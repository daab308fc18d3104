import Verif.Proofs.Python
/-! # The Python classes: every step keeps the invariant -/

namespace TsFile.Py
open Spec CApi

variable {ce : CEnv} {p : PyState} {H : List (PyOp × PyOutcome)}

/-- A step that is not undefined, and keeps the invariant unless the process ends; then it keeps the files. -/
def Fine (ce : CEnv) (p : PyState) (H : List (PyOp × PyOutcome)) (c : PyOp) (r : PyOutcome × PyState) : Prop :=
  r.1 ≠ .ub ∧ (r.1 ≠ .abort → PInv ce r.2 (H ++ [(c, r.1)])) ∧ (r.1 = .abort → r.2.mem.files = p.mem.files)

theorem fine_abort (c : PyOp) (q : PyState) (hq : q.mem.files = p.mem.files) : Fine ce p H c (.abort, q) :=
  ⟨by simp, fun h => absurd rfl h, fun _ => hq⟩

theorem fine_ok {c : PyOp} {q : PyState} {n : Nat} (hq : PInv ce q (H ++ [(c, .ok n)])) : Fine ce p H c (.ok n, q) :=
  ⟨by simp, fun _ => hq, fun h => (by cases h)⟩

theorem fine_raises {q : PyState} (h : PInv ce q H) (c : PyOp) : Fine ce p H c (.raises, q) := by
  refine ⟨by simp, fun _ => h.note _ ?_ (by simp), fun h => (by cases h)⟩
  intro k
  cases c <;> rfl

theorem cstr_of {st : State} {a : Addr} {s : Bytes} (h0 : 0 < a) (hf : find a st.strings = some s) : cstr st a = .ok s := by
  rw [cstr, if_neg (Nat.ne_of_gt h0), hf]

theorem fine_newSchema (h : PInv ce p H) (d m : Bytes) (x y z : Int) :
    Fine ce p H (.newSchema d m x y z) (newSchema ce p d m x y z) := by
  unfold newSchema
  cases hx : cInt x with
  | none => exact fine_raises h _
  | some x' =>
    cases hy : cInt y with
    | none => exact fine_raises h _
    | some y' =>
      cases hz : cInt z with
      | none => exact fine_raises h _
      | some z' =>
        dsimp only
        have g1 := get_ok (ce := ce) h.next (h := []) (fun e he => by cases he) d
        generalize get ce p.mem [] d = r1 at g1 ⊢
        have hn1 : 0 < r1.1.next := Nat.lt_of_lt_of_le h.next g1.keeps.next
        have g2 := get_ok (ce := ce) hn1 g1.ok m
        generalize get ce r1.1 r1.2.1 m = r2 at g2 ⊢
        have hn2 : 0 < r2.1.next := Nat.lt_of_lt_of_le hn1 g2.keeps.next
        obtain ⟨a1, a2, a3⟩ := g2.ok _ (g2.old _ g1.mem)
        obtain ⟨b1, b2, b3⟩ := g2.ok _ g2.mem
        dsimp only at a1 a2 a3 b1 b2 b3
        have e : CApi.step ce r2.1 (.schemaSimple r1.2.2 r2.2.2 (low x') (low y') (low z'))
            = schemaSimple ce r2.1 r1.2.2 r2.2.2 (low x') (low y') (low z') := rfl
        rw [e, schemaSimple, cstr_of a1 a3]
        dsimp only
        rw [cstr_of b1 b3]
        dsimp only
        by_cases hu : (ce.utf8 (cText d) && ce.utf8 (cText m)) = true
        · rw [if_pos hu]
          cases hdt : TSDataType.tryFrom (low x') with
          | none => exact fine_abort _ _ (g1.keeps.trans g2.keeps).files
          | some dt =>
            cases hen : TSEncoding.tryFrom (low y') with
            | none => exact fine_abort _ _ (g1.keeps.trans g2.keeps).files
            | some en =>
              cases hco : CompressionType.tryFrom (low z') with
              | none => exact fine_abort _ _ (g1.keeps.trans g2.keeps).files
              | some co =>
                refine fine_ok ?_
                have hk : Keeps r2.1 { r2.1 with schemas := (r2.1.next, ⟨r1.2.2, r2.2.2, dt, en, co⟩) :: r2.1.schemas, next := r2.1.next + 1 } := by
                  refine ⟨Nat.le_succ _, fun _ _ => rfl, ?_, fun _ _ => rfl, rfl⟩
                  intro a ha
                  rw [find_cons, if_neg (Nat.ne_of_gt ha)]
                have hall := g1.keeps.trans (g2.keeps.trans hk)
                have hp := (h.note (.newSchema d m x y z, .ok p.schemas.length) (fun _ => rfl) (by simp)).mem hall
                have hnew : ∀ e ∈ r2.2.1, p.mem.next ≤ e.2 := by
                  intro e he
                  rcases g2.new e he with he | he
                  · rcases g1.new e he with he | he
                    · cases he
                    · exact he
                  · exact Nat.le_trans g1.keeps.next he
                refine hp.pushSchema (o := ⟨r2.2.1, some r2.1.next, true⟩) (a := r2.1.next)
                  (box := ⟨r1.2.2, r2.2.2, dt, en, co⟩) (d := d) (m := m) (g2.ok.keeps hk) ?_ rfl ⟨hn2, Nat.lt_succ_self _⟩ ?_
                  (g2.old _ g1.mem) g2.mem ?_ ?_
                · intro i s hs e he f hf
                  exact Nat.ne_of_lt (Nat.lt_of_lt_of_le (h.hold i s hs e he).2.1 (hnew f hf))
                · show find r2.1.next ((r2.1.next, _) :: r2.1.schemas) = _
                  rw [find_cons, if_pos rfl]
                · intro i s hs hi
                  exact absurd (h.schLt i s _ hs hi).2 (Nat.not_lt.2 (Nat.le_trans g1.keeps.next g2.keeps.next))
                · refine ⟨x, y, z, List.mem_append_right _ (List.mem_singleton.2 rfl), ?_, ?_, ?_⟩
                  · rw [← low_ofInt, ← (cInt_some hx).2]; exact hdt
                  · rw [← low_ofInt, ← (cInt_some hy).2]; exact hen
                  · rw [← low_ofInt, ← (cInt_some hz).2]; exact hco
        · rw [if_neg hu]
          exact fine_abort _ _ (g1.keeps.trans g2.keeps).files

theorem fine_freeSchema (h : PInv ce p H) (i : Nat) : Fine ce p H (.freeSchema i) (freeSchema ce p i) := by
  unfold freeSchema
  cases hs : p.schemas[i]? with
  | none => exact fine_raises h _
  | some s =>
    dsimp only
    cases hh : s.held with
    | false => exact fine_raises h _
    | true =>
      rw [if_pos rfl]
      cases hi : s.inst with
      | none => exact fine_raises h _
      | some a =>
        dsimp only
        obtain ⟨h0, _⟩ := h.schLt i s a hs hi
        obtain ⟨box, d, m, h1, _⟩ := h.sch i s a hs hi hh
        have e : CApi.step ce p.mem (.schemaFree a) = (.ok 0, { p.mem with schemas := release a p.mem.schemas }) := by
          show schemaFree p.mem a = _
          rw [schemaFree, if_neg (Nat.ne_of_gt h0), h1]
        rw [e]
        refine fine_ok ?_
        have := (h.note (.freeSchema i, .ok 0) (fun _ => rfl) (by simp)).free hs hi
        rw [hh] at this
        simpa only [after] using this

theorem fine_newWriter (h : PInv ce p H) (f : Bytes) (i : Nat) : Fine ce p H (.newWriter f i) (newWriter ce p f i) := by
  unfold newWriter
  cases hs : p.schemas[i]? with
  | none => exact fine_raises h _
  | some s =>
    dsimp only
    cases hh : s.held with
    | false => exact fine_raises h _
    | true =>
      rw [if_pos rfl]
      cases hi : s.inst with
      | none => exact fine_raises h _
      | some a =>
        dsimp only
        obtain ⟨h0, hlt⟩ := h.schLt i s a hs hi
        obtain ⟨box, d, m, h1, h2, h3, h4⟩ := h.sch i s a hs hi hh
        obtain ⟨d1, d2, d3⟩ := h.hold i s hs _ h2
        obtain ⟨m1, m2, m3⟩ := h.hold i s hs _ h3
        dsimp only at d1 d2 d3 m1 m2 m3
        -- the string of the file name
        rw [show CApi.step ce p.mem (.newString (cText f))
          = (.ok p.mem.next, { p.mem with strings := (p.mem.next, cText f) :: p.mem.strings, next := p.mem.next + 1 }) from rfl, after]
        dsimp only
        have e : ∀ st : State, CApi.step ce st (.fileWriterNew p.mem.next a) = fileWriterNew ce st p.mem.next a := fun _ => rfl
        rw [e, fileWriterNew, cstr_of (s := cText f) h.next (by rw [find_cons, if_pos rfl])]
        dsimp only
        rw [h1]
        dsimp only
        rw [find_cons, if_neg (Nat.ne_of_gt d2), d3, find_cons, if_neg (Nat.ne_of_gt m2), m3]
        dsimp only
        by_cases hu : (ce.utf8 (cText f) && ce.canCreate (cText f)) = true
        · rw [if_pos hu]
          rw [show Schema.simple (cText d) (cText m) box.dataType box.encoding box.compression
            = [(cText d, [(cText m, ⟨box.dataType, box.encoding, box.compression⟩)])] from rfl]
          cases hw : Writer.new ce.env [(cText d, [(cText m, ⟨box.dataType, box.encoding, box.compression⟩)])] { bytes := [], cap := none } with
          | error e => exact fine_abort _ _ rfl
          | ok w =>
            rw [after]
            dsimp only
            rw [CApi.step]
            dsimp only
            rw [find_cons, if_pos rfl]
            dsimp only
            refine fine_ok ?_
            have hk : Keeps p.mem ⟨release p.mem.next ((p.mem.next, cText f) :: p.mem.strings), p.mem.schemas, (p.mem.next + 1, ⟨cText f, w, [box.device, box.measurement]⟩) :: p.mem.writers, p.mem.files, p.mem.next + 1 + 1⟩ := by
              refine ⟨Nat.le_trans (Nat.le_succ _) (Nat.le_succ _), ?_, fun _ _ => rfl, ?_, rfl⟩
              · intro x hx
                dsimp only
                rw [find_release, if_neg (Nat.ne_of_lt hx), find_cons, if_neg (Nat.ne_of_gt hx)]
              · intro x hx
                dsimp only
                rw [find_cons, if_neg (Nat.ne_of_gt (Nat.lt_succ_of_lt hx))]
            have hp := (h.note (.newWriter f i, .ok p.writers.length) (fun _ => rfl) (by simp)).mem hk
            refine hp.pushWriter (b := ⟨cText f, w, [box.device, box.measurement]⟩) hs ⟨Nat.succ_pos _, Nat.lt_succ_self _⟩ ?_ ?_ ?_ ?_
            · dsimp only
              rw [find_cons, if_pos rfl]
            · intro x hx
              simp only [List.mem_cons, List.not_mem_nil, or_false] at hx
              rcases hx with rfl | rfl
              · exact ⟨d, h2⟩
              · exact ⟨m, h3⟩
            · intro k o ho hi'
              exact absurd (h.wriLt k o _ ho hi').2 (Nat.not_lt.2 (Nat.le_succ _))
            · have hun : pyWrites p.writers.length (H ++ [(.newWriter f i, .ok p.writers.length)]) = [] := by
                rw [pyWrites_append, h.unused _ (Nat.le_refl _)]
                rfl
              refine ⟨f, d, m, _, w, List.mem_append_right _ (List.mem_singleton.2 rfl), h4.mono _, rfl, hw, ?_, ?_⟩
              · dsimp only; rw [hun]; rfl
              · dsimp only; rw [hun]; intro r hr; cases hr
        · rw [if_neg hu]
          exact fine_abort _ _ rfl

theorem fine_writeInt (h : PInv ce p H) (k : Nat) (d m : Bytes) (t v : Int) :
    Fine ce p H (.writeInt k d m t v) (writeInt ce p k d m t v) := by
  unfold writeInt
  cases ho : p.writers[k]? with
  | none => exact fine_raises h _
  | some o =>
    dsimp only
    cases hh : o.held with
    | false => exact fine_raises h _
    | true =>
      rw [if_pos rfl]
      cases hi : o.inst with
      | none => exact fine_raises h _
      | some a =>
        obtain ⟨s, b, hs, hb, hbor, hrun⟩ := h.wri k o a ho hi hh
        rw [hs]
        dsimp only
        have g1 := get_ok (ce := ce) h.next (h.hold _ s hs) d
        generalize get ce p.mem s.holder d = r1 at g1 ⊢
        have hn1 : 0 < r1.1.next := Nat.lt_of_lt_of_le h.next g1.keeps.next
        have g2 := get_ok (ce := ce) hn1 g1.ok m
        generalize get ce r1.1 r1.2.1 m = r2 at g2 ⊢
        have hall := g1.keeps.trans g2.keeps
        have hp1 := h.mem hall
        have hp2 := hp1.holder (i := o.schema) (s := s) (h' := r2.2.1) hs g2.ok (fun e he => g2.old _ (g1.old _ he)) (by
          intro j u hu hj e he f hf
          have h1 := (h.hold j u hu e he).2.1
          rcases g2.new f hf with hf | hf
          · rcases g1.new f hf with hf | hf
            · exact h.disj j o.schema u s hu hs hj e he f hf
            · exact Nat.ne_of_lt (Nat.lt_of_lt_of_le h1 hf)
          · exact Nat.ne_of_lt (Nat.lt_of_lt_of_le h1 (Nat.le_trans g1.keeps.next hf)))
        dsimp only at hp2
        cases ht : cInt t with
        | none => exact fine_raises hp2 _
        | some t' =>
          cases hv : cInt v with
          | none => exact fine_raises hp2 _
          | some v' =>
            obtain ⟨ht1, rfl⟩ := cInt_some ht
            obtain ⟨hv1, rfl⟩ := cInt_some hv
            dsimp only
            obtain ⟨a1, a2, a3⟩ := g2.ok _ (g2.old _ g1.mem)
            obtain ⟨b1, b2, b3⟩ := g2.ok _ g2.mem
            dsimp only at a1 a2 a3 b1 b2 b3
            have hb' : find a r2.1.writers = some b := by rw [hall.writers _ (h.wriLt k o a ho hi).2]; exact hb
            have hbor' : ∀ x ∈ b.borrowed, ∃ t, (t, x) ∈ r2.2.1 := by
              intro x hx
              obtain ⟨y, hy⟩ := hbor x hx
              exact ⟨y, g2.old _ (g1.old _ hy)⟩
            rw [signExtend_ofInt ht1]
            have e : ∀ t' v', CApi.step ce r2.1 (.fileWriterWriteInt32 a r1.2.2 r2.2.2 t' v')
                = fileWriterWriteInt32 ce r2.1 a r1.2.2 r2.2.2 t' v' := fun _ _ => rfl
            rw [e, fileWriterWriteInt32, if_neg (Nat.ne_of_gt (h.wriLt k o a ho hi).1), cstr_of a1 a3]
            dsimp only
            rw [cstr_of b1 b3]
            dsimp only
            rw [hb']
            dsimp only
            by_cases hu : (ce.utf8 (cText d) && ce.utf8 (cText m)) = true
            · rw [if_pos hu, if_pos (by
                rw [List.all_eq_true]
                intro x hx
                obtain ⟨y, hy⟩ := hbor' x hx
                rw [(g2.ok _ hy).2.2]
                rfl)]
              cases hw : b.writer.write ce.env (cText d) (cText m) (BitVec.ofInt 64 t) (.INT (BitVec.ofInt 32 v)) with
              | mk w' res =>
                cases res with
                | ok u =>
                  refine fine_ok ?_
                  refine hp2.write (k := k) (o := o) (a := a) (s := { s with holder := r2.2.1 }) (b := b) 0 ho hi
                    (getElem?_set_new hs) hb' hw ?_
                  intro x hx
                  have hx' : x ∈ b.borrowed ∨ x = r2.2.2 := by
                    cases hkm : keepsMeasurement b.writer (cText d) (cText m) with
                    | true =>
                      rw [hkm, if_pos rfl] at hx
                      rcases List.mem_append.1 hx with hx | hx
                      · exact Or.inl hx
                      · exact Or.inr (List.mem_singleton.1 hx)
                    | false =>
                      rw [hkm, if_neg (by simp)] at hx
                      exact Or.inl hx
                  rcases hx' with hx | rfl
                  · exact hbor' x hx
                  · exact ⟨m, g2.mem⟩
                | err e => exact fine_abort _ _ hall.files
                | panic => exact fine_abort _ _ hall.files
            · rw [if_neg hu]
              exact fine_abort _ _ hall.files

theorem fine_close (h : PInv ce p H) (k : Nat) : Fine ce p H (.close k) (close ce p k) := by
  unfold close
  cases ho : p.writers[k]? with
  | none => exact fine_raises h _
  | some o =>
    dsimp only
    cases hh : o.held with
    | false => exact fine_raises h _
    | true =>
      rw [if_pos rfl]
      cases hi : o.inst with
      | none => exact fine_raises h _
      | some a =>
        obtain ⟨s, b, hs, hb, hbor, hrun⟩ := h.wri k o a ho hi hh
        dsimp only
        rw [show CApi.step ce p.mem (.fileWriterClose a) = fileWriterClose ce p.mem a from rfl, fileWriterClose,
          if_neg (Nat.ne_of_gt (h.wriLt k o a ho hi).1), hb]
        dsimp only
        rw [if_pos (by
          rw [List.all_eq_true]
          intro x hx
          obtain ⟨y, hy⟩ := hbor x hx
          rw [(h.hold _ s hs _ hy).2.2]
          rfl)]
        cases hw : b.writer.close ce.env with
        | none => exact fine_abort _ _ rfl
        | some w' =>
          refine fine_ok ?_
          have := h.close 0 ho hi hb hh hw
          rw [hh] at this
          exact this

/-- An object is no longer referred to by the program. -/
theorem PInv.letSchema (h : PInv ce p H) {i : Nat} {s : SchemaObj} (hs : p.schemas[i]? = some s) :
    PInv ce { p with schemas := p.schemas.set i { s with held := false } } H := by
  refine ⟨h.next, ?_, ?_, ?_, ?_, ?_, h.wriLt, ?_, ?_, h.wriOne, h.unused, h.closed⟩
  · intro j t ht
    rcases getElem?_set_cases ht with ⟨_, ht⟩ | ⟨_, rfl, _⟩
    · exact h.hold j t ht
    · exact h.hold i s hs
  · intro j k t u ht hu hjk e he f hf
    rcases getElem?_set_cases ht with ⟨n1, ht⟩ | ⟨e1, rfl, _⟩ <;> rcases getElem?_set_cases hu with ⟨n2, hu⟩ | ⟨e2, rfl, _⟩
    · exact h.disj j k t u ht hu hjk e he f hf
    · exact h.disj j i t s ht hs n1 e he f hf
    · exact h.disj i k s u hs hu (fun e => n2 e.symm) e he f hf
    · omega
  · intro j t b ht hb
    rcases getElem?_set_cases ht with ⟨_, ht⟩ | ⟨rfl, rfl, _⟩
    · exact h.schLt j t b ht hb
    · exact h.schLt j s b hs hb
  · intro j t b ht hb hh
    rcases getElem?_set_cases ht with ⟨_, ht⟩ | ⟨rfl, rfl, _⟩
    · exact h.sch j t b ht hb hh
    · cases hh
  · intro j k t u b ht hu htb hub
    rcases getElem?_set_cases ht with ⟨n1, ht⟩ | ⟨e1, rfl, _⟩ <;> rcases getElem?_set_cases hu with ⟨n2, hu⟩ | ⟨e2, rfl, _⟩
    · exact h.schOne j k t u b ht hu htb hub
    · rw [e2]; exact h.schOne j i t s b ht hs htb hub
    · rw [e1]; exact h.schOne i k s u b hs hu htb hub
    · omega
  · intro k o ho
    obtain ⟨t, ht⟩ := h.wriSch k o ho
    by_cases hi : o.schema = i
    · exact ⟨_, by rw [hi]; exact getElem?_set_new hs⟩
    · exact ⟨t, getElem?_set_old ht hi⟩
  · intro k o b ho hb hh
    obtain ⟨t, c, g1, g2, g3, g4⟩ := h.wri k o b ho hb hh
    by_cases hi : o.schema = i
    · rw [hi, hs] at g1
      obtain rfl := Option.some.inj g1
      exact ⟨{ s with held := false }, c, by rw [hi]; exact getElem?_set_new hs, g2, g3, g4⟩
    · exact ⟨t, c, getElem?_set_old g1 hi, g2, g3, g4⟩

theorem PInv.letWriter (h : PInv ce p H) {k : Nat} {o : WriterObj} (ho : p.writers[k]? = some o) :
    PInv ce { p with writers := p.writers.set k { o with held := false } } H := by
  refine ⟨h.next, h.hold, h.disj, h.schLt, h.sch, h.schOne, ?_, ?_, ?_, ?_, ?_, ?_⟩
  · intro l q c hq hc
    rcases getElem?_set_cases hq with ⟨_, hq⟩ | ⟨_, rfl, _⟩
    · exact h.wriLt l q c hq hc
    · exact h.wriLt k o c ho hc
  · intro l q hq
    rcases getElem?_set_cases hq with ⟨_, hq⟩ | ⟨_, rfl, _⟩
    · exact h.wriSch l q hq
    · exact h.wriSch k o ho
  · intro l q c hq hc hh
    rcases getElem?_set_cases hq with ⟨_, hq⟩ | ⟨_, rfl, _⟩
    · exact h.wri l q c hq hc hh
    · cases hh
  · intro l l' q q' c hq hq' hc hc'
    rcases getElem?_set_cases hq with ⟨n1, hq⟩ | ⟨e1, rfl, _⟩ <;> rcases getElem?_set_cases hq' with ⟨n2, hq'⟩ | ⟨e2, rfl, _⟩
    · exact h.wriOne l l' q q' c hq hq' hc hc'
    · rw [e2]; exact h.wriOne l k q o c hq ho hc hc'
    · rw [e1]; exact h.wriOne k l' o q' c ho hq' hc hc'
    · omega
  · intro l hl
    exact h.unused l (by simpa using hl)
  · intro l r hm
    obtain ⟨⟨q, q1, q2⟩, g⟩ := h.closed l r hm
    refine ⟨?_, g⟩
    by_cases hl : l = k
    · subst hl
      rw [ho] at q1
      obtain rfl := Option.some.inj q1
      exact ⟨_, getElem?_set_new ho, q2⟩
    · exact ⟨q, getElem?_set_old q1 hl, q2⟩

theorem find_filter {α : Type} (a : Addr) (l : List (Addr × α)) (xs : List Addr) (ha : a ∉ xs) :
    find a (l.filter (fun e => !xs.contains e.1)) = find a l := by
  induction l with
  | nil => rfl
  | cons e l ih =>
    rw [List.filter_cons]
    by_cases he : e.1 = a
    · rw [if_pos (by rw [he]; simpa using ha), find, find, if_pos he, if_pos he]
    · split
      · rw [find, find, if_neg he, if_neg he, ih]
      · rw [find, if_neg he, ih]

/-- Reclaiming. -/
theorem PInv.reclaim (h : PInv ce p H) (i : Nat) : PInv ce (reclaim p i) H := by
  unfold Py.reclaim
  by_cases hl : p.live i = true
  · rw [if_pos hl]; exact h
  · rw [if_neg hl]
    cases hs : p.schemas[i]? with
    | none => exact h
    | some s =>
      dsimp only
      rw [PyState.live, hs] at hl
      simp only [Bool.or_eq_true, not_or, Bool.not_eq_true, List.any_eq_false, Bool.and_eq_true, beq_iff_eq, not_and] at hl
      obtain ⟨hl1, hl2⟩ := hl
      have hfind : ∀ (j : Nat) (t : SchemaObj), p.schemas[j]? = some t → j ≠ i → ∀ e ∈ t.holder, e.2 ∉ s.holder.map Prod.snd := by
        intro j t ht hj e he hm
        obtain ⟨f, hf, hfe⟩ := List.mem_map.1 hm
        exact h.disj j i t s ht hs hj e he f hf hfe.symm
      refine ⟨h.next, ?_, ?_, ?_, ?_, ?_, h.wriLt, ?_, ?_, h.wriOne, h.unused, h.closed⟩
      · intro j t ht
        rcases getElem?_set_cases ht with ⟨hj, ht⟩ | ⟨_, rfl, _⟩
        · intro e he
          obtain ⟨g1, g2, g3⟩ := h.hold j t ht e he
          exact ⟨g1, g2, by rw [find_filter _ _ _ (hfind j t ht hj e he)]; exact g3⟩
        · intro e he; cases he
      · intro j k t u ht hu hjk e he f hf
        rcases getElem?_set_cases ht with ⟨n1, ht⟩ | ⟨e1, rfl, _⟩
        · rcases getElem?_set_cases hu with ⟨n2, hu⟩ | ⟨e2, rfl, _⟩
          · exact h.disj j k t u ht hu hjk e he f hf
          · cases hf
        · cases he
      · intro j t b ht hb
        rcases getElem?_set_cases ht with ⟨_, ht⟩ | ⟨rfl, rfl, _⟩
        · exact h.schLt j t b ht hb
        · exact h.schLt j s b hs hb
      · intro j t b ht hb hh
        rcases getElem?_set_cases ht with ⟨_, ht⟩ | ⟨rfl, rfl, _⟩
        · exact h.sch j t b ht hb hh
        · rw [hl1] at hh; cases hh
      · intro j k t u b ht hu htb hub
        rcases getElem?_set_cases ht with ⟨n1, ht⟩ | ⟨e1, rfl, _⟩ <;> rcases getElem?_set_cases hu with ⟨n2, hu⟩ | ⟨e2, rfl, _⟩
        · exact h.schOne j k t u b ht hu htb hub
        · rw [e2]; exact h.schOne j i t s b ht hs htb hub
        · rw [e1]; exact h.schOne i k s u b hs hu htb hub
        · omega
      · intro k o ho
        obtain ⟨t, ht⟩ := h.wriSch k o ho
        by_cases hi : o.schema = i
        · exact ⟨_, by rw [hi]; exact getElem?_set_new hs⟩
        · exact ⟨t, getElem?_set_old ht hi⟩
      · intro k o b ho hb hh
        obtain ⟨t, c, g1, g2, g3, g4⟩ := h.wri k o b ho hb hh
        by_cases hi : o.schema = i
        · exact absurd hi (hl2 o (List.mem_of_getElem? ho) hh)
        · exact ⟨t, c, getElem?_set_old g1 hi, g2, g3, g4⟩

theorem fine_delSchema (h : PInv ce p H) (i : Nat) : Fine ce p H (.delSchema i) (delSchema p i) := by
  unfold delSchema
  cases hs : p.schemas[i]? with
  | none => exact fine_raises h _
  | some s =>
    dsimp only
    cases hh : s.held with
    | false => exact fine_raises h _
    | true =>
      rw [if_pos rfl]
      exact fine_ok (((h.note (.delSchema i, .ok 0) (fun _ => rfl) (by simp)).letSchema hs).reclaim i)

theorem fine_delWriter (h : PInv ce p H) (k : Nat) : Fine ce p H (.delWriter k) (delWriter p k) := by
  unfold delWriter
  cases ho : p.writers[k]? with
  | none => exact fine_raises h _
  | some o =>
    dsimp only
    cases hh : o.held with
    | false => exact fine_raises h _
    | true =>
      rw [if_pos rfl]
      exact fine_ok (((h.note (.delWriter k, .ok 0) (fun _ => rfl) (by simp)).letWriter ho).reclaim _)

theorem fine_step (h : PInv ce p H) (c : PyOp) : Fine ce p H c (step ce p c) := by
  cases c with
  | newSchema d m x y z => exact fine_newSchema h d m x y z
  | freeSchema i => exact fine_freeSchema h i
  | newWriter f i => exact fine_newWriter h f i
  | writeInt k d m t v => exact fine_writeInt h k d m t v
  | close k => exact fine_close h k
  | delSchema i => exact fine_delSchema h i
  | delWriter k => exact fine_delWriter h k

end TsFile.Py
