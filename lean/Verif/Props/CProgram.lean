import Verif.Spec.CProgram
import Verif.Props.CApi
import Verif.Props.PythonProgram
/-! # Property C84: programs of the C interface that hand over their points in order -/

namespace TsFile
open Spec CApi

/-! ## Lemmas -/

theorem once_run (ce : CEnv) (cs : List CCall) : ∀ (st : State) (H : List (CCall × Outcome)), Once st H →
    Once (CApi.run ce st cs).2 (H ++ cs.zip (CApi.run ce st cs).1) := by
  induction cs with
  | nil => intro st H o; rw [List.zip_nil_left, List.append_nil]; exact o
  | cons c cs ih =>
    intro st H o
    have h1 := once_step (ce := ce) o c
    rw [CApi.run]
    rcases hs : CApi.step ce st c with ⟨r, st'⟩
    rw [hs] at h1
    cases r with
    | ok a =>
      have := ih st' _ h1
      rw [List.append_assoc, List.singleton_append] at this
      exact this
    | abort => simpa using h1
    | ub => simpa using h1

theorem behaves_ne_zero {x : CCall × Outcome} {r : Addr} : ∀ (cs : List CCall) (h : Holds) (os : List Outcome), Behaves h cs os →
    x ∈ cs.zip os → born x = some r → r ≠ 0
  | [], _, _, _, hx, _ => by simp at hx
  | _ :: _, _, [], _, hx, _ => by simp at hx
  | c :: cs, h, o :: os, hb, hx, hr => by
    rw [List.zip_cons_cons, List.mem_cons] at hx
    cases o with
    | ok a =>
      rcases hx with rfl | hx
      · have h1 := hb.1
        cases c <;> simp only [born, Option.some.injEq, reduceCtorEq] at hr <;> (subst hr; exact h1.1)
      · exact behaves_ne_zero cs _ os hb.2 hx hr
    | abort =>
      have hos : os = [] := by simpa [Behaves] using hb
      subst hos
      simp only [List.zip_nil_right, List.not_mem_nil, or_false] at hx
      subst hx
      cases c <;> cases hr
    | ub => simp [Behaves] at hb

theorem text_made {p : Addr} {s : Bytes} (H : List (CCall × Outcome)) : ∀ texts : List (Addr × Bytes),
    (∀ s', (.newString s', .ok p) ∈ H → s' = s) → (text p texts = s ∨ (.newString s, .ok p) ∈ H) → text p (made texts H) = s := by
  induction H with
  | nil =>
    intro texts _ h
    rcases h with h | h
    · exact h
    · simp at h
  | cons x H ih =>
    intro texts hinj h
    have hinj' := fun s' hs => hinj s' (List.mem_cons_of_mem _ hs)
    have other : (∀ s, x ≠ (.newString s, .ok p)) → made texts (x :: H) = made texts H → text p (made texts (x :: H)) = s := by
      intro hx he
      rw [he]
      refine ih texts hinj' ?_
      rcases h with h | h
      · exact .inl h
      · rcases List.mem_cons.1 h with h | h
        · exact absurd h.symm (hx s)
        · exact .inr h
    obtain ⟨c, o⟩ := x
    cases c with
    | newString s' =>
      cases o with
      | ok r =>
        rw [made]
        by_cases hr : r = p
        · subst hr
          obtain rfl := hinj s' List.mem_cons_self
          exact ih _ hinj' (.inl (by rw [text, if_pos rfl]))
        · refine ih _ hinj' ?_
          rcases h with h | h
          · exact .inl (by rw [text, if_neg hr]; exact h)
          · rcases List.mem_cons.1 h with h | h
            · simp only [Prod.mk.injEq, Outcome.ok.injEq] at h
              exact absurd h.2.symm hr
            · exact .inr h
      | abort => exact other (by simp) rfl
      | ub => exact other (by simp) rfl
    | freeString _ => exact other (by simp) rfl
    | schemaSimple _ _ _ _ _ => exact other (by simp) rfl
    | schemaFree _ => exact other (by simp) rfl
    | fileWriterNew _ _ => exact other (by simp) rfl
    | fileWriterWriteInt32 _ _ _ _ _ => exact other (by simp) rfl
    | fileWriterClose _ => exact other (by simp) rfl

/-- The writes of some points to one series. -/
def pointsTo (d m : Bytes) (pts : List (W64 × W32)) : List Op := pts.map (fun p => .write d m p.1 (.INT p.2))

theorem points_orderly {d m : Bytes} {ms : MeasurementSchema} (hms : ms.dataType = .INT32) {pts : List (W64 × W32)}
    (hp : ∀ p ∈ pts, 0 ≤ p.1.toInt) (hi : pts.Pairwise (fun p q => p.1.toInt < q.1.toInt)) :
    Orderly [(d, [(m, ms)])] (pointsTo d m pts) := by
  refine ⟨?_, ?_, increasing_of ?_ ?_⟩
  · intro op h
    obtain ⟨p, _, rfl⟩ := List.mem_map.1 h
    simp [Op.recs]
  · intro r h
    obtain ⟨op, h1, h2⟩ := List.mem_flatMap.1 h
    obtain ⟨p, _, rfl⟩ := List.mem_map.1 h1
    simp only [Op.recs, List.mem_singleton] at h2
    subst h2
    exact ⟨[(m, ms)], ms, by simp [look], by simp [look], by rw [hms]; rfl, by rw [hms]; cases ms.encoding <;> rfl⟩
  · intro r h
    obtain ⟨op, h1, h2⟩ := List.mem_flatMap.1 h
    obtain ⟨p, h3, rfl⟩ := List.mem_map.1 h1
    simp only [Op.recs, List.mem_singleton] at h2
    subst h2
    exact hp p h3
  · rw [pointsTo, List.flatMap_map]
    simp only [Op.recs]
    rw [← List.map_eq_flatMap, List.pairwise_map]
    exact hi.imp (fun h _ _ => h)

theorem points_handed (d m : Bytes) (pts : List (W64 × W32)) : handed (pointsTo d m pts) = pts.length := by
  simp [handed, pointsTo, Function.comp_def, Op.recs]

theorem single_indexable {d m : Bytes} {ms : MeasurementSchema} (hlen : d.length + 1 + m.length ≤ 100) (hdot : NoDot m) :
    Schema.Indexable [(d, [(m, ms)])] ∧ Schema.NamesBelow [(d, [(m, ms)])] 100 := by
  refine ⟨⟨⟨⟨by simp, by simp⟩, ?_, ?_⟩, ?_, ?_⟩, ?_, ?_⟩
  · intro x hx; rw [List.mem_singleton] at hx; subst hx; simp only; omega
  · intro x hx y hy
    rw [List.mem_singleton] at hx; subst hx
    rw [List.mem_singleton] at hy; subst hy
    simp only; omega
  · intro x hx y hy
    rw [List.mem_singleton] at hx; subst hx
    rw [List.mem_singleton] at hy; subst hy
    exact hdot
  · intro x hx; rw [List.mem_singleton] at hx; subst hx; simp
  · intro x hx; rw [List.mem_singleton] at hx; subst hx; simp only; omega
  · intro x hx y hy
    rw [List.mem_singleton] at hx; subst hx
    rw [List.mem_singleton] at hy; subst hy
    simp only; omega

/-- What was written through a handle: nothing, or points of its series with increasing timestamps. -/
def Told (H : List (CCall × Outcome)) (w : Addr) : Prop :=
  writesTo w [] H = [] ∨ ∃ f d m ms pts, OpenedAs H w f d m ms ∧ writesTo w [] H = pointsTo d m pts ∧ (∀ p ∈ pts, 0 ≤ p.1.toInt)
    ∧ pts.Pairwise (fun p q => p.1.toInt < q.1.toInt) ∧ pts.length ≤ 100000000
    ∧ ∀ p ∈ pts, ∃ da ma r, (.fileWriterWriteInt32 w da ma p.1 p.2, .ok r) ∈ H

theorem told_quiet {H : List (CCall × Outcome)} {x : CCall × Outcome} {w : Addr} (h : Told H w)
    (hx : writesTo w (made [] H) [x] = []) : Told (H ++ [x]) w := by
  have he : writesTo w [] (H ++ [x]) = writesTo w [] H := by rw [writesTo_append, hx, List.append_nil]
  rcases h with h | ⟨f, d, m, ms, pts, h1, h2, h3, h4, h5, h6⟩
  · exact .inl (he.trans h)
  · refine .inr ⟨f, d, m, ms, pts, OpenedAs.mono h1 x, he.trans h2, h3, h4, h5, fun p hp => ?_⟩
    obtain ⟨da, ma, r, h⟩ := h6 p hp
    exact ⟨da, ma, r, List.mem_append_left _ h⟩

theorem told_step {st : State} {ce : CEnv} {H : List (CCall × Outcome)} (once : Once st H) {c : CCall} {o : Outcome}
    (hin : CallInOrder ce H c) {w : Addr} (h : Told H w) : Told (H ++ [(c, o)]) w := by
  by_cases hq : writesTo w (made [] H) [(c, o)] = []
  · exact told_quiet h hq
  · cases c with
    | fileWriterWriteInt32 w' da ma t v =>
      cases o with
      | ok r =>
        by_cases hw : w' = w
        · subst hw
          obtain ⟨⟨f, d, m, ms, h1, h2, h3⟩, h4, h5, h6⟩ := hin
          have hd : text da (made [] H) = d := text_made H [] (fun s' hs => once.string hs h2) (.inr h2)
          have hm : text ma (made [] H) = m := text_made H [] (fun s' hs => once.string hs h3) (.inr h3)
          have he : writesTo w' [] (H ++ [(.fileWriterWriteInt32 w' da ma t v, .ok r)])
              = writesTo w' [] H ++ [.write d m t (.INT v)] := by
            rw [writesTo_append, writesTo, if_pos rfl, writesTo, hd, hm]
          right
          rcases h with h | ⟨f', d', m', ms', pts, g1, g2, g3, g4, g5, g6⟩
          · refine ⟨f, d, m, ms, [(t, v)], OpenedAs.mono h1 _, ?_, ?_, ?_, ?_, ?_⟩
            · rw [he, h]; rfl
            · intro p hp; rw [List.mem_singleton.1 hp]; exact h4
            · exact List.pairwise_singleton _ _
            · simp
            · intro p hp; rw [List.mem_singleton.1 hp]; exact ⟨da, ma, r, by simp⟩
          · obtain ⟨rfl, rfl, rfl, rfl⟩ := once.opened h1 g1
            refine ⟨f, d, m, ms, pts ++ [(t, v)], OpenedAs.mono h1 _, ?_, ?_, ?_, ?_, ?_⟩
            · rw [he, g2, pointsTo, pointsTo, List.map_append]; rfl
            · intro p hp
              rcases List.mem_append.1 hp with hp | hp
              · exact g3 p hp
              · rw [List.mem_singleton.1 hp]; exact h4
            · rw [List.pairwise_append]
              refine ⟨g4, List.pairwise_singleton _ _, fun p hp q hq => ?_⟩
              rw [List.mem_singleton.1 hq]
              obtain ⟨da', ma', r', hh⟩ := g6 p hp
              exact h5 da' ma' p.1 p.2 r' hh
            · rw [g2, pointsTo, List.length_map] at h6
              rw [List.length_append, List.length_singleton]
              omega
            · intro p hp
              rcases List.mem_append.1 hp with hp | hp
              · obtain ⟨da', ma', r', hh⟩ := g6 p hp
                exact ⟨da', ma', r', List.mem_append_left _ hh⟩
              · rw [List.mem_singleton.1 hp]; exact ⟨da, ma, r, by simp⟩
        · exact absurd (by rw [writesTo, if_neg hw, writesTo]) hq
      | abort => exact absurd rfl hq
      | ub => exact absurd rfl hq
    | newString s => cases o <;> exact absurd rfl hq
    | freeString _ => exact absurd rfl hq
    | schemaSimple _ _ _ _ _ => exact absurd rfl hq
    | schemaFree _ => exact absurd rfl hq
    | fileWriterNew _ _ => exact absurd rfl hq
    | fileWriterClose _ => exact absurd rfl hq

theorem once_take {st : State} {H : List (CCall × Outcome)} (once : Once st H) (k : Nat) : Once st (H.take k) :=
  ⟨fun x hx => once.lt x (List.mem_of_mem_take hx),
   fun x hx y hy => once.inj x (List.mem_of_mem_take hx) y (List.mem_of_mem_take hy)⟩

theorem told_all {st : State} {ce : CEnv} {cs : List CCall} {os : List Outcome} (once : Once st (cs.zip os))
    (hin : ∀ k c, cs[k]? = some c → CallInOrder ce ((cs.zip os).take k) c) (w : Addr) (k : Nat) : Told ((cs.zip os).take k) w := by
  induction k with
  | zero => exact .inl rfl
  | succ k ih =>
    rw [List.take_add_one]
    cases hx : (cs.zip os)[k]? with
    | none => simpa using ih
    | some x =>
      obtain ⟨c, o⟩ := x
      have hc : cs[k]? = some c := (List.getElem?_zip_eq_some.1 hx).1
      exact told_step (once_take once k) (hin k c hc) ih

/-- The series of a schema handle. -/
theorem schema_of {st : State} {ce : CEnv} {cs : List CCall} {os : List Outcome} (once : Once st (cs.zip os))
    (hin : ∀ k c, cs[k]? = some c → CallInOrder ce ((cs.zip os).take k) c) {k : Nat} {w : Addr} {f d m : Bytes} {ms : MeasurementSchema}
    (h : OpenedAs ((cs.zip os).take k) w f d m ms) : ms.dataType = .INT32 ∧ d.length + 1 + m.length ≤ 100 ∧ NoDot m := by
  obtain ⟨fa, sa, da, ma, x, y, z, h1, h2, h3, h4, h5, h6, h7, h8⟩ := h
  obtain ⟨j, hj⟩ := List.getElem?_of_mem (List.mem_of_mem_take h4)
  have hc : cs[j]? = some (.schemaSimple da ma x y z) := (List.getElem?_zip_eq_some.1 hj).1
  obtain ⟨⟨d', m', g1, g2, g3, g4⟩, rfl, -, -⟩ := hin j _ hc
  obtain rfl := once.string (List.mem_of_mem_take h2) (List.mem_of_mem_take g1)
  obtain rfl := once.string (List.mem_of_mem_take h3) (List.mem_of_mem_take g2)
  have h6' : TSDataType.tryFrom 1 = some .INT32 := by decide
  rw [h6', Option.some.injEq] at h6
  exact ⟨h6.symm, g3, g4⟩

/-! ## C84 -/

/-- `C84_orderly`, and what every session of the program writes. -/
theorem orderly_program {ce : CEnv} {unsnap : Bytes → Option Bytes} (hev : EnvOk ce.env unsnap)
    (hB : ∀ n ≤ 1, ce.env.bloomSize n ≤ 256) {cs : List CCall} (h : Obeys Holds.nothing cs (CApi.run ce CApi.start cs).1)
    (hin : ∀ k c, cs[k]? = some c → CallInOrder ce ((cs.zip (CApi.run ce CApi.start cs).1).take k) c) :
    (∃ rs : List Addr, rs.length = cs.length ∧ (CApi.run ce CApi.start cs).1 = rs.map .ok)
    ∧ (∀ w r, w ≠ 0 → (.fileWriterClose w, .ok r) ∈ cs.zip (CApi.run ce CApi.start cs).1 →
      ∃ f d m ms file, OpenedAs (cs.zip (CApi.run ce CApi.start cs).1) w f d m ms
        ∧ (f, file) ∈ (CApi.run ce CApi.start cs).2.files
        ∧ ∀ d' m', readSeries unsnap file d' m'
          = some (series ((writesTo w [] (cs.zip (CApi.run ce CApi.start cs).1)).flatMap Op.recs) d' m'))
    ∧ ∀ w f d m ms, OpenedAs (cs.zip (CApi.run ce CApi.start cs).1) w f d m ms →
      ∃ s, session ce.env [(d, [(m, ms)])] (writesTo w [] (cs.zip (CApi.run ce CApi.start cs).1)) = some s
        ∧ ∀ d' m', readSeries unsnap s.file d' m'
          = some (series ((writesTo w [] (cs.zip (CApi.run ce CApi.start cs).1)).flatMap Op.recs) d' m') := by
  have once := once_run ce cs CApi.start [] once_start
  rw [List.nil_append] at once
  have hbeh := (C46_handles_partial ce cs h).1
  generalize hos : (CApi.run ce CApi.start cs).1 = os at *
  have hutf : ∀ k s p, (.newString s, .ok p) ∈ (cs.zip os).take k → ¬ BadString ce ((cs.zip os).take k) p := by
    intro k s p hs
    rintro (h0 | ⟨s', hs', hu⟩)
    · exact behaves_ne_zero cs _ os hbeh (List.mem_of_mem_take hs) rfl h0
    · obtain ⟨j, hj⟩ := List.getElem?_of_mem (List.mem_of_mem_take hs')
      have hc : cs[j]? = some (.newString s') := (List.getElem?_zip_eq_some.1 hj).1
      have := hin j _ hc
      rw [CallInOrder, hu] at this
      cases this
  have hsmall : ∀ k w f d m ms, OpenedAs ((cs.zip os).take k) w f d m ms → ∃ pts, writesTo w [] ((cs.zip os).take k) = pointsTo d m pts
      ∧ (∀ p ∈ pts, 0 ≤ p.1.toInt) ∧ pts.Pairwise (fun p q => p.1.toInt < q.1.toInt) ∧ pts.length ≤ 100000000
      ∧ ∀ p ∈ pts, ∃ da ma r, (.fileWriterWriteInt32 w da ma p.1 p.2, .ok r) ∈ (cs.zip os).take k := by
    intro k w f d m ms ho
    rcases told_all once hin w k with h | ⟨f', d', m', ms', pts, g1, g2, g3, g4, g5, g6⟩
    · exact ⟨[], h, by simp, List.Pairwise.nil, by decide, by simp⟩
    · obtain ⟨rfl, rfl, rfl, rfl⟩ := (once_take once k).opened ho g1
      exact ⟨pts, g2, g3, g4, g5, g6⟩
  have hsession : ∀ k w f d m ms, OpenedAs ((cs.zip os).take k) w f d m ms →
      ∃ s, session ce.env [(d, [(m, ms)])] (writesTo w [] ((cs.zip os).take k)) = some s
        ∧ ∀ d' m', readSeries unsnap s.file d' m' = some (series ((writesTo w [] ((cs.zip os).take k)).flatMap Op.recs) d' m') := by
    intro k w f d m ms ho
    obtain ⟨h1, h2, h3⟩ := schema_of once hin ho
    obtain ⟨pts, g1, g2, g3, g4, -⟩ := hsmall k w f d m ms ho
    obtain ⟨hix, hnm⟩ := single_indexable (ms := ms) h2 h3
    obtain ⟨s, hs, -, hr⟩ := C81_small hev hix (points_orderly h1 g2 g3) (by rw [points_handed]; exact g4) (by simp)
      (by simp [Schema.size]) hnm (fun n hn => hB n (by simpa [Schema.size] using hn))
    exact ⟨s, by rw [g1]; exact hs, by rw [g1]; exact hr⟩
  have hall : ∀ k c, cs[k]? = some c → ¬ AbortReason ce ((cs.zip os).take k) c := by
    intro k c hc
    have hk := hin k c hc
    cases c with
    | newString s => exact id
    | freeString p => exact id
    | schemaFree s => exact id
    | schemaSimple da ma x y z =>
      obtain ⟨⟨d, m, g1, g2, -, -⟩, rfl, hy, hz⟩ := hk
      rintro (h1 | h1 | h1 | h1 | h1)
      · exact hutf k _ _ g1 h1
      · exact hutf k _ _ g2 h1
      · cases h1
      · rcases hy with rfl | rfl <;> cases h1
      · rcases hz with rfl | rfl <;> cases h1
    | fileWriterNew fa sa =>
      obtain ⟨f, g1, g2⟩ := hk
      rintro (h1 | ⟨name, h1, h2⟩ | ⟨d, m, ms, e, -, h2⟩)
      · exact hutf k _ _ g1 h1
      · obtain rfl := (once_take once k).string g1 h1
        rw [g2] at h2
        cases h2
      · obtain ⟨w, hw⟩ := new_total ce.env [(d, [(m, ms)])]
        rw [hw] at h2
        cases h2
    | fileWriterWriteInt32 w da ma t v =>
      obtain ⟨⟨f, d, m, ms, g1, g2, g3⟩, g4, g5, g6⟩ := hk
      rintro (h1 | h1 | h1 | ⟨f', d', m', ms', writer, d2, m2, h1, ⟨w0, h2, h3⟩, h4, h5, h6⟩)
      · obtain ⟨fa, sa, a1, -, -⟩ := OpenedAs.split g1
        exact behaves_ne_zero cs _ os hbeh (List.mem_of_mem_take a1) rfl h1
      · exact hutf k _ _ g2 h1
      · exact hutf k _ _ g3 h1
      · obtain ⟨rfl, rfl, rfl, rfl⟩ := (once_take once k).opened g1 h1
        obtain rfl := (once_take once k).string g2 h4
        obtain rfl := (once_take once k).string g3 h5
        subst h3
        refine h6 (write_of_run ?_)
        obtain ⟨k1, k2, k3⟩ := schema_of once hin g1
        obtain ⟨pts, p1, p2, p3, p4, p5⟩ := hsmall k w f d m ms g1
        obtain ⟨hix, hnm⟩ := single_indexable (ms := ms) k2 k3
        have he : writesTo w [] ((cs.zip os).take k) ++ [.write d m t (.INT v)] = pointsTo d m (pts ++ [(t, v)]) := by
          rw [p1, pointsTo, pointsTo, List.map_append]; rfl
        rw [p1, pointsTo, List.length_map] at g6
        rw [he]
        have hsz : Schema.size [(d, [(m, ms)])] = 1 := rfl
        refine (orderly_session hev hix.wf (points_orderly k1 ?_ ?_) h2 (L := 100000001) (by rw [hsz]; decide) (handed_bursts _ ?_)
          (fun n hn => by rw [hsz] at hn; have := hB n hn; omega)).1
        · intro p hp
          rcases List.mem_append.1 hp with hp | hp
          · exact p2 p hp
          · rw [List.mem_singleton.1 hp]; exact g4
        · rw [List.pairwise_append]
          refine ⟨p3, List.pairwise_singleton _ _, fun p hp q hq => ?_⟩
          rw [List.mem_singleton.1 hq]
          obtain ⟨da', ma', r', hh⟩ := p5 p hp
          exact g5 da' ma' p.1 p.2 r' hh
        · rw [points_handed, List.length_append, List.length_singleton]
          omega
    | fileWriterClose w =>
      rintro ⟨-, f, d, m, ms, h1, h2⟩
      obtain ⟨s, hs, -⟩ := hsession k w f d m ms h1
      rw [hs] at h2
      cases h2
  refine ⟨?_, ?_, fun w f d m ms h1 => ?_⟩
  · have := C65_completes ce cs (by rw [hos]; exact h) (by rw [hos]; exact hall)
    rw [hos] at this
    exact this
  · intro w r hw hc
    obtain ⟨f, d, m, ms, s, h1, h2, -, h4⟩ := C54_file_of_session ce cs w r hw (by rw [hos]; exact hc)
    rw [hos] at h1 h2
    obtain ⟨s', hs', hr⟩ := hsession (cs.zip os).length w f d m ms (by rw [List.take_length]; exact h1)
    rw [List.take_length] at hs' hr
    rw [h2, Option.some.injEq] at hs'
    subst hs'
    exact ⟨f, d, m, ms, s.file, h1, h4, hr⟩
  · have := hsession (cs.zip os).length w f d m ms (by rw [List.take_length]; exact h1)
    rwa [List.take_length] at this

/-- **C84**: a C program that keeps to the rules of C46 and hands over its points in order, with any number of schemas and writers
at the same time, makes all its calls, and each returns; the file of every writer that it closed contains exactly the points that
were written through its handle. -/
theorem C84_orderly {ce : CEnv} {unsnap : Bytes → Option Bytes} (hev : EnvOk ce.env unsnap)
    (hB : ∀ n ≤ 1, ce.env.bloomSize n ≤ 256) {cs : List CCall} (h : Obeys Holds.nothing cs (CApi.run ce CApi.start cs).1)
    (hin : ∀ k c, cs[k]? = some c → CallInOrder ce ((cs.zip (CApi.run ce CApi.start cs).1).take k) c) :
    (∃ rs : List Addr, rs.length = cs.length ∧ (CApi.run ce CApi.start cs).1 = rs.map .ok)
    ∧ ∀ w r, w ≠ 0 → (.fileWriterClose w, .ok r) ∈ cs.zip (CApi.run ce CApi.start cs).1 →
      ∃ f d m ms file, OpenedAs (cs.zip (CApi.run ce CApi.start cs).1) w f d m ms
        ∧ (f, file) ∈ (CApi.run ce CApi.start cs).2.files
        ∧ ∀ d' m', readSeries unsnap file d' m'
          = some (series ((writesTo w [] (cs.zip (CApi.run ce CApi.start cs).1)).flatMap Op.recs) d' m') :=
  let h := orderly_program hev hB h hin
  ⟨h.1, h.2.1⟩

/-! ## Cases -/

/-- Two writers of one schema, interleaved (`Demo.cprogram`). -/
theorem Demo.cprogram_in_order (k : Nat) (c : CCall) (hc : Demo.cprogram[k]? = some c) :
    CallInOrder Demo.cenv ((Demo.cprogram.zip (CApi.run Demo.cenv CApi.start Demo.cprogram).1).take k) c := by
  have hrun : (CApi.run Demo.cenv CApi.start Demo.cprogram).1 = [1, 2, 3, 4, 5, 6, 7, 0, 0, 6, 7, 6, 0, 7, 0, 0, 0, 0].map Outcome.ok := by
    decide +kernel
  rw [hrun]
  have hk : k < 18 := by
    rcases Nat.lt_or_ge k 18 with h | h
    · exact h
    · rw [List.getElem?_eq_none (by exact h)] at hc
      cases hc
  have hw : ∀ k ms, ms = ⟨.INT32, .TS2DIFF, .UNCOMPRESSED⟩ → 9 ≤ k →
      OpenedAs ((Demo.cprogram.zip ([1, 2, 3, 4, 5, 6, 7, 0, 0, 6, 7, 6, 0, 7, 0, 0, 0, 0].map Outcome.ok)).take k) 6 (str "a.tsfile") (str "d1") (str "s1") ms
      ∧ OpenedAs ((Demo.cprogram.zip ([1, 2, 3, 4, 5, 6, 7, 0, 0, 6, 7, 6, 0, 7, 0, 0, 0, 0].map Outcome.ok)).take k) 7 (str "b.tsfile") (str "d1") (str "s1") ms := by
    intro k ms hms h
    obtain ⟨j, rfl⟩ := Nat.exists_eq_add_of_le h
    rw [Nat.add_comm]
    subst hms
    simp only [Demo.cprogram, List.map_cons, List.map_nil, List.zip_cons_cons, List.take_succ_cons]
    exact ⟨⟨3, 5, 1, 2, 1, 4, 0, by simp, by simp, by simp, by simp, by simp, rfl, rfl, rfl⟩,
      ⟨4, 5, 1, 2, 1, 4, 0, by simp, by simp, by simp, by simp, by simp, rfl, rfl, rfl⟩⟩
  have hcase : k = 0 ∨ k = 1 ∨ k = 2 ∨ k = 3 ∨ k = 4 ∨ k = 5 ∨ k = 6 ∨ k = 7 ∨ k = 8 ∨ k = 9 ∨ k = 10 ∨ k = 11 ∨ k = 12 ∨ k = 13 ∨ k = 14 ∨ k = 15 ∨ k = 16 ∨ k = 17 := by omega
  rcases hcase with rfl | rfl | rfl | rfl | rfl | rfl | rfl | rfl | rfl | rfl | rfl | rfl | rfl | rfl | rfl | rfl | rfl | rfl <;> obtain rfl := Option.some.inj hc
  · unfold CallInOrder; decide +kernel
  · unfold CallInOrder; decide +kernel
  · unfold CallInOrder; decide +kernel
  · unfold CallInOrder; decide +kernel
  · exact ⟨⟨str "d1", str "s1", by simp [Demo.cprogram], by simp [Demo.cprogram], by decide +kernel, by decide +kernel⟩, rfl, .inr rfl, .inl rfl⟩
  · exact ⟨str "a.tsfile", by simp [Demo.cprogram], rfl⟩
  · exact ⟨str "b.tsfile", by simp [Demo.cprogram], rfl⟩
  · exact True.intro
  · exact True.intro
  · refine ⟨⟨_, _, _, _, (hw 9 _ rfl (by decide)).1, by simp [Demo.cprogram], by simp [Demo.cprogram]⟩, by decide, ?_, by decide +kernel⟩
    intro da' ma' t' v' r h
    simp only [Demo.cprogram, List.map_cons, List.map_nil, List.zip_cons_cons, List.take_succ_cons, List.take_zero, List.mem_cons, List.not_mem_nil,
      or_false, Prod.mk.injEq, CCall.fileWriterWriteInt32.injEq, Outcome.ok.injEq, reduceCtorEq, false_and, and_false, false_or] at h
  · refine ⟨⟨_, _, _, _, (hw 10 _ rfl (by decide)).2, by simp [Demo.cprogram], by simp [Demo.cprogram]⟩, by decide, ?_, by decide +kernel⟩
    intro da' ma' t' v' r h
    simp only [Demo.cprogram, List.map_cons, List.map_nil, List.zip_cons_cons, List.take_succ_cons, List.take_zero, List.mem_cons, List.not_mem_nil,
      or_false, Prod.mk.injEq, CCall.fileWriterWriteInt32.injEq, Outcome.ok.injEq, reduceCtorEq, false_and, and_false, false_or] at h
    exact absurd h.1.1 (by decide)
  · refine ⟨⟨_, _, _, _, (hw 11 _ rfl (by decide)).1, by simp [Demo.cprogram], by simp [Demo.cprogram]⟩, by decide, ?_, by decide +kernel⟩
    intro da' ma' t' v' r h
    simp only [Demo.cprogram, List.map_cons, List.map_nil, List.zip_cons_cons, List.take_succ_cons, List.take_zero, List.mem_cons, List.not_mem_nil,
      or_false, Prod.mk.injEq, CCall.fileWriterWriteInt32.injEq, Outcome.ok.injEq, reduceCtorEq, false_and, and_false, false_or] at h
    rcases h with h | h
    · rw [h.1.2.2.2.1]; decide
    · exact absurd h.1.1 (by decide)
  · exact True.intro
  · refine ⟨⟨_, _, _, _, (hw 13 _ rfl (by decide)).2, by simp [Demo.cprogram], by simp [Demo.cprogram]⟩, by decide, ?_, by decide +kernel⟩
    intro da' ma' t' v' r h
    simp only [Demo.cprogram, List.map_cons, List.map_nil, List.zip_cons_cons, List.take_succ_cons, List.take_zero, List.mem_cons, List.not_mem_nil,
      or_false, Prod.mk.injEq, CCall.fileWriterWriteInt32.injEq, Outcome.ok.injEq, reduceCtorEq, false_and, and_false, false_or] at h
    rcases h with h | h | h
    · exact absurd h.1.1 (by decide)
    · rw [h.1.2.2.2.1]; decide
    · exact absurd h.1.1 (by decide)
  · exact True.intro
  · exact True.intro
  · exact True.intro
  · exact True.intro

/-- All 18 calls return, and both files contain their points. -/
example : (∃ rs : List Addr, rs.length = 18 ∧ (CApi.run Demo.cenv CApi.start Demo.cprogram).1 = rs.map .ok)
    ∧ ∃ file, (str "b.tsfile", file) ∈ (CApi.run Demo.cenv CApi.start Demo.cprogram).2.files
      ∧ readSeries some file (str "d1") (str "s1") = some [(3, .INT 4), (5, .INT 5)] := by
  obtain ⟨h1, h2⟩ := C84_orderly (ce := Demo.cenv) Demo.envOk (by decide +kernel) (cs := Demo.cprogram) (by decide +kernel)
    Demo.cprogram_in_order
  refine ⟨h1, ?_⟩
  obtain ⟨f, d, m, ms, file, h3, h4, h5⟩ := h2 7 0 (by decide) (by decide +kernel)
  have h6 := h5 (str "d1") (str "s1")
  have once := once_run Demo.cenv Demo.cprogram CApi.start [] once_start
  rw [List.nil_append] at once
  have h7 : OpenedAs (Demo.cprogram.zip (CApi.run Demo.cenv CApi.start Demo.cprogram).1) 7 (str "b.tsfile") (str "d1") (str "s1")
      ⟨.INT32, .TS2DIFF, .UNCOMPRESSED⟩ :=
    ⟨4, 5, 1, 2, 1, 4, 0, by decide +kernel, by decide +kernel, by decide +kernel, by decide +kernel, by decide +kernel, rfl, rfl, rfl⟩
  obtain ⟨rfl, -⟩ := once.opened h3 h7
  refine ⟨file, h4, h6.trans ?_⟩
  decide +kernel

end TsFile
