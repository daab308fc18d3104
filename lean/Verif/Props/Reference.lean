import Verif.Proofs.RefIndex
import Verif.Props.Structure
import Verif.Props.Size
import Verif.Props.Device
import Verif.Props.Bloom
/-! # The file byte by byte (C76), and what it does not depend on (C77)

`Spec/Reference.lean` describes the part of a file before its index as a function of the points of each flush, without buffers
and without the states of encoders. -/

namespace TsFile
open Spec

section
variable {env : Env} {unsnap : Bytes → Option Bytes} {schema : Schema} {ops : List Op} {s : Session}

/-- **C76.** Byte by byte, the part of a closed file before its index is that of the reference for the flushes of the session:
head, chunk groups, chunk headers, pages, TS_2DIFF and PLAIN values, sizes and page statistics. -/
theorem C76_data (he : EnvOk env unsnap) (hsch : schema.Named) (hs : session env schema ops = some s) (hw : s.Within ops) :
    ∃ items stop, scan unsnap s.file = some (items, stop)
      ∧ Ref.data env schema (burstsBy schema ops s.grown) = some (s.file.take stop) := by
  obtain ⟨c⟩ := session_outlined he hsch hs hw
  refine ⟨_, _, c.layout.scan hsch c.ok c.fits, ?_⟩
  rw [c.data hsch]
  congr 1
  have hb := c.layout.bytes
  conv_rhs => rw [hb]
  rw [List.take_left]

/-- **C76**, where pages end. The points of every chunk are in the pages that the reference gives them: a page is looked at
from 7989 points on, later pages of the chunk from 1500 points on, and it ends when it is estimated to have more than 64 KB. -/
theorem C76_pages (he : EnvOk env unsnap) (hsch : schema.Named) (hs : session env schema ops = some s) (hw : s.Within ops) :
    ∃ all, chunksOf unsnap s.file = some all
      ∧ ∀ x ∈ all, x.2.2.pages.map Prod.snd
        = Ref.pages env ⟨x.2.2.dataType, x.2.2.encoding, x.2.2.compression⟩ x.2.2.points := by
  obtain ⟨c⟩ := session_outlined he hsch hs hw
  refine ⟨_, c.layout.chunksOf hsch c.ok c.fits, ?_⟩
  intro x hx
  obtain ⟨l, hl, rfl⟩ := List.mem_map.1 hx
  obtain ⟨g, hg, _, hgc⟩ := fileLocs_mem hl
  have h := (c.exact g hg _ hgc).pages
  rw [GChunk.toSpec_points]
  show (l.2.2.toSpec env).pages.map Prod.snd = _
  rw [GChunk.toSpec, List.map_map]
  exact h

/-- **C76**, the whole file. The file is, to the last byte, that of the reference: records of the series, nodes of the devices,
footer and Bloom filter. This includes schemas with dots in measurement names, for which the records are not those of the devices
of the schema, and devices with more than 65536 series, whose nodes lead nowhere (C33). Only the order of the nodes is left
open. -/
theorem C76_file (he : EnvOk env unsnap) (hsch : schema.Named) (hs : session env schema ops = some s) (hw : s.Within ops)
    (hsize : ∀ n, n ≤ schema.size → env.bloomSize n < 2 ^ 31) :
    ∃ head order, Ref.data env schema (burstsBy schema ops s.grown) = some head
      ∧ order.Perm (Ref.deviceNodes (head.length + 1) (Ref.records env (Ref.chunks env schema (burstsBy schema ops s.grown))))
      ∧ s.file = Ref.file env head (Ref.chunks env schema (burstsBy schema ops s.grown)) order := by
  obtain ⟨c⟩ := session_outlined he hsch hs hw
  exact c.reference hsch hsize

/-- **C77.** Whatever the order of the calls: two sessions that flush the same points of each series, flush by flush, give the
same file, to the last byte. It does not matter in which order points of different series were written, whether by `write` or
by `write_many`, which calls failed, and in which order devices and measurements are in the schema. -/
theorem C77_same_file {schema' : Schema} {ops' : List Op} {s' : Session} (he : EnvOk env unsnap)
    (hsch : schema.Named) (hsch' : schema'.Named)
    (hd : ∀ d, (look d schema).isSome = (look d schema').isSome)
    (hm : ∀ d m, (look d schema).bind (look m) = (look d schema').bind (look m))
    (hs : session env schema ops = some s) (hw : s.Within ops)
    (hs' : session env schema' ops' = some s') (hw' : s'.Within ops')
    (hb : List.Forall₂ (fun b b' => ∀ d m, series b d m = series b' d m) (burstsBy schema ops s.grown) (burstsBy schema' ops' s'.grown)) :
    s.file = s'.file := by
  obtain ⟨c⟩ := session_outlined he hsch hs hw
  obtain ⟨c'⟩ := session_outlined he hsch' hs' hw'
  have hg : c.groups = c'.groups := by
    rw [c.groups_eq hsch.wf, c'.groups_eq hsch'.wf]
    exact flatMap_gburst hsch.wf hsch'.wf hd hm hb
  obtain ⟨io, a, h1, h2, h3, h4, h5⟩ := c.closed
  obtain ⟨io', a', h1', h2', h3', h4', h5'⟩ := c'.closed
  rw [h5, h5', endFile_congr (by rw [h1, h1', hg]) (by rw [h2, h2', hg]) (by rw [h3, h3']) h4 h4']

/-- The number of flushes: those during the history, and the one made by closing. -/
theorem run_bursts_length (schema : Schema) (l : List (Op × Bool)) (a : AState) :
    (a.run schema l).1.bursts.length ≤ a.bursts.length + (l.filter (fun e => e.2)).length := by
  induction l generalizing a with
  | nil => simp [AState.run]
  | cons e l ih =>
    obtain ⟨op, fl⟩ := e
    rw [AState.run]
    dsimp only
    refine Nat.le_trans (ih _) ?_
    have h1 : (a.exec schema op).1.bursts = a.bursts := exec_bursts schema a op
    cases fl with
    | false => simp [AState.step, h1]
    | true =>
      have : ((a.exec schema op).1.flush).bursts.length ≤ a.bursts.length + 1 := by
        rw [AState.flush]
        split
        · rw [h1]; omega
        · simp [h1]
      simp only [AState.step, if_true, List.filter_cons, List.length_cons]
      omega

theorem burstsBy_length (schema : Schema) (ops : List Op) (grown : List Nat) :
    (burstsBy schema ops grown).length ≤ 1 + growths grown := by
  rw [burstsBy, AState.flush]
  have h := run_bursts_length schema (ops.zip (grown.map (fun n => decide (0 < n)))) AState.init
  have hz : ∀ (a : List Op) (b : List Nat),
      ((a.zip (b.map (fun n => decide (0 < n)))).filter (fun e => e.2)).length ≤ growths b := by
    intro a
    induction a with
    | nil => simp
    | cons x a ih =>
      intro b
      cases b with
      | nil => simp
      | cons y b =>
        have := ih b
        rw [growths] at this ⊢
        simp only [List.map_cons, List.zip_cons_cons, List.filter_cons]
        split <;> simp <;> omega
  have := hz ops grown
  rw [show AState.init.bursts.length = 0 from rfl] at h
  split
  · omega
  · simp; omega

/-- A short session does not flush before it is closed. -/
theorem session_quiet (he : EnvOk env unsnap) (hwf : schema.WF) (hs : session env schema ops = some s)
    (hlen : handed ops + 6 * schema.size ≤ 6100805) : growths s.grown = 0 := by
  rw [session] at hs
  split at hs
  · simp at hs
  · rename_i w hw
    split at hs
    · simp at hs
    · rename_i hp
      cases hc : (w.run env ops).1.close env with
      | none => rw [hc] at hs; simp at hs
      | some r =>
        rw [hc] at hs
        simp only [Option.some.injEq] at hs
        have hb : burstsBelow (2 ^ 32) 0 (ops.zip ((w.grown env ops).map (fun n => decide (0 < n)))) :=
          bursts_handed _ _ (by omega)
        have h1 := C66_rare he.snappy hwf ⟨hw, rfl, hp, hb⟩
        rw [← hs]
        by_contra hne
        have : 1 * (6100806 - 6 * schema.size) ≤ growths (w.grown env ops) * (6100806 - 6 * schema.size) :=
          Nat.mul_le_mul_right _ (Nat.pos_of_ne_zero hne)
        omega

theorem short_bursts (he : EnvOk env unsnap) (hwf : schema.WF) (hs : session env schema ops = some s)
    (hlen : handed ops + 6 * schema.size ≤ 6100805) :
    burstsBy schema ops s.grown
      = if storedBy schema ops s.grown = [] then [] else [storedBy schema ops s.grown] := by
  have h1 := burstsBy_length schema ops s.grown
  rw [session_quiet he hwf hs hlen] at h1
  obtain ⟨h2, h3⟩ := C68_bursts schema ops s.grown
  generalize burstsBy schema ops s.grown = l at h1 h2 h3
  match l with
  | [] => rw [← h2]; rfl
  | [b] =>
    have := h3 b (by simp)
    rw [← h2]
    simp [this]
  | _ :: _ :: _ => simp at h1

/-- **C77**, for short histories (up to six million points): the points of each series alone decide the file. -/
theorem C77_short {schema' : Schema} {ops' : List Op} {s' : Session} (he : EnvOk env unsnap)
    (hsch : schema.Named) (hsch' : schema'.Named)
    (hd : ∀ d, (look d schema).isSome = (look d schema').isSome)
    (hm : ∀ d m, (look d schema).bind (look m) = (look d schema').bind (look m))
    (hs : session env schema ops = some s) (hw : s.Within ops) (hlen : handed ops + 6 * schema.size ≤ 6100805)
    (hs' : session env schema' ops' = some s') (hw' : s'.Within ops') (hlen' : handed ops' + 6 * schema'.size ≤ 6100805)
    (hp : ∀ d m, series (storedBy schema ops s.grown) d m = series (storedBy schema' ops' s'.grown) d m) :
    s.file = s'.file := by
  refine C77_same_file he hsch hsch' hd hm hs hw hs' hw' ?_
  rw [short_bursts he hsch.wf hs hlen, short_bursts he hsch'.wf hs' hlen']
  have hnil : ∀ l : List Rec, (l = []) ↔ ∀ d m, series l d m = [] := by
    intro l
    constructor
    · rintro rfl d m; rfl
    · intro h
      cases l with
      | nil => rfl
      | cons r l =>
        exact absurd (h r.device r.measurement) (series_ne_nil.2 ⟨r, by simp, rfl, rfl⟩)
  have hiff : storedBy schema ops s.grown = [] ↔ storedBy schema' ops' s'.grown = [] := by
    rw [hnil, hnil]
    simp only [hp]
  by_cases h : storedBy schema ops s.grown = []
  · rw [if_pos h, if_pos (hiff.1 h)]; exact .nil
  · rw [if_neg h, if_neg (fun h' => h (hiff.2 h'))]; exact .cons hp .nil

end

/-! ## The hypotheses are met -/

example := C76_data Demo.envOk Demo.indexable.toNamed Demo.session_eq Demo.within
example := C76_pages Demo.envOk Demo.indexable.toNamed Demo.session_eq Demo.within

example := C76_file Demo.envOk Demo.indexable.toNamed Demo.session_eq Demo.within Demo.bloomSize

-- a schema in which two series have the same path
example := C76_file Demo.envOk Demo.mixedNamed Demo.mixedSession_eq Demo.mixedWithin (by decide +kernel)

namespace Demo

/-- The schema of `Demo.schema` with devices and measurements in another order. -/
def turned : Schema :=
  [(str "root.sg.d1", [(str "unused", ⟨.INT64, .PLAIN, .SNAPPY⟩), (str "s1", ⟨.INT32, .TS2DIFF, .UNCOMPRESSED⟩)]),
   (str "root.sg.d2", [(str "s2", ⟨.FLOAT, .PLAIN, .UNCOMPRESSED⟩), (str "s1", ⟨.INT64, .TS2DIFF, .SNAPPY⟩)])]

/-- The points of `Demo.ops` in another order and by other calls. -/
def turnedOps : List Op :=
  [.write (str "root.sg.d2") (str "s2") 6 (.FLOAT 0x40490fdb),
   .write (str "root.sg.d2") (str "s1") 5 (.LONG (-3)),
   .write (str "root.sg.d7") (str "s1") 1 (.INT 1),
   .write (str "root.sg.d2") (str "s1") 6 (.LONG 9000000000),
   .writeMany (str "root.sg.d1") 10 [(str "s1", .INT 7)],
   .write (str "root.sg.d1") (str "s1") 12 (.INT (-1))]

def turnedResult : Session := (session env turned turnedOps).getD ⟨[], [], 0, []⟩

theorem turned_eq : session env turned turnedOps = some turnedResult := by
  have : (session env turned turnedOps).isSome = true := by decide +kernel
  rw [turnedResult]
  cases h : session env turned turnedOps with
  | none => rw [h] at this; simp at this
  | some s => rfl

theorem turned_within : turnedResult.Within turnedOps :=
  ⟨by decide +kernel, by decide +kernel, by decide +kernel, by decide +kernel⟩

theorem turned_named : turned.Named :=
  ⟨⟨by decide +kernel, by decide +kernel⟩, by decide +kernel, by decide +kernel⟩

/-- Two lists of points agree on every series if they agree on the series that occur. -/
theorem series_agree {b b' : List Rec}
    (h : ((b ++ b').all fun r => decide (series b r.device r.measurement = series b' r.device r.measurement)) = true) :
    ∀ d m, series b d m = series b' d m := by
  intro d m
  by_cases hx : ∃ r ∈ b ++ b', r.device = d ∧ r.measurement = m
  · obtain ⟨r, hr, rfl, rfl⟩ := hx
    exact of_decide_eq_true (List.all_eq_true.1 h r hr)
  · have h1 : series b d m = [] := by
      by_contra hne
      obtain ⟨r, hr, h⟩ := series_ne_nil.1 hne
      exact hx ⟨r, by simp [hr], h⟩
    have h2 : series b' d m = [] := by
      by_contra hne
      obtain ⟨r, hr, h⟩ := series_ne_nil.1 hne
      exact hx ⟨r, by simp [hr], h⟩
    rw [h1, h2]

theorem turned_devices (d : Bytes) : (look d schema).isSome = (look d turned).isSome := by
  have hne : str "root.sg.d1" ≠ str "root.sg.d2" := by decide +kernel
  by_cases h1 : str "root.sg.d1" = d
  · subst h1; decide +kernel
  · by_cases h2 : str "root.sg.d2" = d
    · subst h2; decide +kernel
    · simp [schema, turned, look, h1, h2]

theorem turned_series (d m : Bytes) : (look d schema).bind (look m) = (look d turned).bind (look m) := by
  have hne : str "root.sg.d1" ≠ str "root.sg.d2" := by decide +kernel
  have hn2 : str "s1" ≠ str "s2" := by decide +kernel
  have hn3 : str "s1" ≠ str "unused" := by decide +kernel
  by_cases h1 : str "root.sg.d1" = d
  · subst h1
    by_cases h3 : str "s1" = m
    · subst h3; decide +kernel
    · simp [schema, turned, look, hne.symm, h3]
  · by_cases h2 : str "root.sg.d2" = d
    · subst h2
      by_cases h3 : str "s1" = m
      · subst h3; decide +kernel
      · simp [schema, turned, look, hne, h3]
    · simp [schema, turned, look, h1, h2]

theorem turned_bursts : List.Forall₂ (fun b b' => ∀ d m, series b d m = series b' d m)
    (burstsBy schema ops result.grown) (burstsBy turned turnedOps turnedResult.grown) := by
  have h1 : burstsBy schema ops result.grown = [(burstsBy schema ops result.grown).flatten] := by decide +kernel
  have h2 : burstsBy turned turnedOps turnedResult.grown = [(burstsBy turned turnedOps turnedResult.grown).flatten] := by
    decide +kernel
  rw [h1, h2]
  exact .cons (series_agree (by decide +kernel)) .nil

end Demo

example : Demo.result.file = Demo.turnedResult.file :=
  C77_short Demo.envOk Demo.indexable.toNamed Demo.turned_named Demo.turned_devices Demo.turned_series
    Demo.session_eq Demo.within (by decide +kernel) Demo.turned_eq Demo.turned_within (by decide +kernel)
    (Demo.series_agree (by decide +kernel))

/-- Two different sessions, the same file. -/
example : Demo.ops ≠ Demo.turnedOps ∧ Demo.result.file = Demo.turnedResult.file :=
  ⟨by decide +kernel, C77_same_file Demo.envOk Demo.indexable.toNamed Demo.turned_named Demo.turned_devices Demo.turned_series
    Demo.session_eq Demo.within Demo.turned_eq Demo.turned_within Demo.turned_bursts⟩

end TsFile
