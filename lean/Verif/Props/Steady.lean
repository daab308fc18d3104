import Verif.Props.Size
import Verif.Props.Codec
import Verif.Props.Example
import Verif.Proofs.Near
/-! # How small steady numbers get: C89 -/

namespace TsFile
open Spec

theorem encodeTs2Diff_ref {w : Nat} (tb : BitVec w → Bytes → Nat → Nat → Option Bytes) (hp : PackOk w tb)
    (h8 : w % 8 = 0) (hw : w ≤ 64) (hw0 : 0 < w) (vs : List (BitVec w)) : encodeTs2Diff tb vs = some (Ref.ts2diff vs) := by
  have key : ∀ (l : List (BitVec w)) (e : Ts2Diff w) (done : List (BitVec w)), EncRep e done →
      ∃ e', l.foldlM (fun e v => Ts2Diff.write tb e v) e = some e' ∧ EncRep e' (done ++ l) := by
    intro l
    induction l with
    | nil => intro e done h; exact ⟨e, rfl, by simpa using h⟩
    | cons v l ih =>
      intro e done h
      obtain ⟨e1, h1, h2⟩ := write_rep tb hp h8 hw hw0 e done v h
      obtain ⟨e2, h3, h4⟩ := ih e1 _ h2
      refine ⟨e2, ?_, by simpa using h4⟩
      rw [List.foldlM_cons, h1]
      exact h3
  obtain ⟨e', h1, h2⟩ := key vs Ts2Diff.new [] encRep_new
  obtain ⟨e2, b, h3, _, _, h5⟩ := serialize_rep tb hp h8 hw hw0 e' _ h2
  rw [List.nil_append] at h5
  rw [encodeTs2Diff, h1]
  simp [h3, h5]

/-- **C89.** 64 bit integers whose neighbours differ by numbers from a range of `2 ^ k` take 24 bytes and 16 bytes for each of the
`k` bits, for every 129 of them. -/
theorem C89_long (vs : List W64) (k : Nat) (h : steady 64 k (vs.map BitVec.toInt)) :
    ∃ b, encodeTs2Diff longToBytes vs = some b ∧ decodeTs2Diff 64 b = some vs ∧ b.length ≤ (24 + 16 * k) * ((vs.length + 128) / 129) := by
  obtain ⟨b, h1, h2⟩ := C10_ts2diff_long vs
  have h3 := encodeTs2Diff_ref longToBytes packOk_long rfl (by omega) (by omega) vs
  rw [h1] at h3
  cases h3
  exact ⟨_, h1, h2, blocks_near (steady_near h) _⟩

/-- **C89.** 32 bit integers take eight bytes less. -/
theorem C89_int (vs : List W32) (k : Nat) (h : steady 32 k (vs.map BitVec.toInt)) :
    ∃ b, encodeTs2Diff intToBytes vs = some b ∧ decodeTs2Diff 32 b = some vs ∧ b.length ≤ (16 + 16 * k) * ((vs.length + 128) / 129) := by
  obtain ⟨b, h1, h2⟩ := C11_ts2diff_int vs
  have h3 := encodeTs2Diff_ref intToBytes packOk_int rfl (by omega) (by omega) vs
  rw [h1] at h3
  cases h3
  exact ⟨_, h1, h2, blocks_near (steady_near h) _⟩

/-- **C89.** A whole file: if all series are of integers in TS_2DIFF without compression, times change steadily within `k` bits and
values within `j` bits, then a stored point takes `4 + k + j` sevenths of a byte. The rest is for devices and series, for each
flush (the last one is made by `close`), and the Bloom filter. -/
theorem C89_file {env : Env} {unsnap : Bytes → Option Bytes} (he : EnvOk env unsnap) {schema : Schema}
    (hwf : schema.WF) {ops : List Op} {s : Session} (hs : session env schema ops = some s)
    (hb : burstsBelow (2 ^ 32) 0 (ops.zip (s.grown.map (fun n => decide (0 < n))))) {N : Nat} (hN : schema.NamesBelow N)
    (hd : ∀ e ∈ schema, ∀ m ∈ e.2,
      (m.2.dataType = .INT32 ∨ m.2.dataType = .INT64) ∧ m.2.encoding = .TS2DIFF ∧ m.2.compression = .UNCOMPRESSED)
    {k j : Nat}
    (ht : ∀ d m, steady 64 k ((series (storedBy schema ops s.grown) d m).map (fun p => p.1.toInt)))
    (hi : ∀ d m, steady 32 j ((Ref.ints ((series (storedBy schema ops s.grown) d m).map Prod.snd)).map BitVec.toInt))
    (hl : ∀ d m, steady 64 j ((Ref.longs ((series (storedBy schema ops s.grown) d m).map Prod.snd)).map BitVec.toInt)) :
    7 * s.file.length ≤ (4 + (k + j)) * (storedBy schema ops s.grown).length
      + 7 * (60 + (1 + growths s.grown) * schema.length * (7 + N)
        + (380 + 16 * (k + j) + 4 * N) * ((1 + growths s.grown) * schema.size)
        + bloomBits env (pathsOf (storedBy schema ops s.grown)).length / 8) := by
  have := session_steady he hwf hs hb hN hd (k := k) (j := j) (fun d m => ⟨steady_near (by
    rw [List.map_map]; exact ht d m), steady_near (hi d m), steady_near (hl d m)⟩)
  rw [growths]
  omega

-- times about every ten units, 0 to 3 late
example : ∃ b, encodeTs2Diff longToBytes [100, 112, 120, 133, 141] = some b ∧ decodeTs2Diff 64 b = some [100, 112, 120, 133, 141]
    ∧ b.length ≤ 24 + 16 * 3 :=
  C89_long [100, 112, 120, 133, 141] 3 ⟨8, by
    intro i hi
    rcases i with _ | _ | _ | _ | i <;> first | (revert hi; decide) | exact absurd hi (by simp)⟩

-- temperatures in tenths of a degree that move by -2 to 1
example : ∃ b, encodeTs2Diff intToBytes [211, 209, 210, 208] = some b ∧ decodeTs2Diff 32 b = some [211, 209, 210, 208]
    ∧ b.length ≤ 16 + 16 * 2 :=
  C89_int [211, 209, 210, 208] 2 ⟨-2, by
    intro i hi
    rcases i with _ | _ | _ | i <;> first | (revert hi; decide) | exact absurd hi (by simp)⟩

-- a tick each second for a day: 86400 times in less than 16 KB, instead of 691200 bytes
example (t : Nat) (ht : t < 2 ^ 62) : ∃ b, encodeTs2Diff longToBytes ((List.range 86400).map (fun i => BitVec.ofNat 64 (t + 1000 * i))) = some b
    ∧ b.length ≤ 24 * 670 := by
  obtain ⟨b, h1, _, h2⟩ := C89_long ((List.range 86400).map (fun i => BitVec.ofNat 64 (t + 1000 * i))) 0 ⟨1000, by
    intro i hi
    simp only [List.length_map, List.length_range] at hi
    have e : ∀ n, n < 86400 → (BitVec.ofNat 64 (t + 1000 * n)).toInt = t + 1000 * n := by
      intro n hn
      rw [BitVec.toInt_eq_toNat_of_lt] <;> rw [BitVec.toNat_ofNat, Nat.mod_eq_of_lt] <;> omega
    simp only [List.getElem_map, List.getElem_range]
    rw [e _ (by omega), e _ (by omega)]
    omega⟩
  exact ⟨b, h1, by simpa using h2⟩

/-! A file with one series. -/

/-- One series of 64 bit integers in TS_2DIFF. -/
def steadySchema : Schema := [(str "root.d", [(str "s", ⟨.INT64, .TS2DIFF, .UNCOMPRESSED⟩)])]

/-- Three points. -/
def steadyOps : List Op :=
  [.write (str "root.d") (str "s") 10 (.LONG 5), .write (str "root.d") (str "s") 21 (.LONG 4), .write (str "root.d") (str "s") 31 (.LONG 7)]

example : ∃ s, session Demo.env steadySchema steadyOps = some s
    ∧ storedBy steadySchema steadyOps s.grown = [⟨str "root.d", str "s", 10, .LONG 5⟩, ⟨str "root.d", str "s", 21, .LONG 4⟩, ⟨str "root.d", str "s", 31, .LONG 7⟩]
    ∧ 7 * s.file.length ≤ (4 + (1 + 3)) * 3
      + 7 * (60 + (1 + 0) * 1 * (7 + 8) + (380 + 16 * (1 + 3) + 4 * 8) * ((1 + 0) * 1) + bloomBits Demo.env 1 / 8) := by
  have hsome : (session Demo.env steadySchema steadyOps).isSome = true := by decide +kernel
  have hgrown : (session Demo.env steadySchema steadyOps).map Session.grown = some [0, 0, 0] := by decide +kernel
  obtain ⟨s, hs⟩ := Option.isSome_iff_exists.1 hsome
  rw [hs, Option.map_some, Option.some.injEq] at hgrown
  have hst : storedBy steadySchema steadyOps s.grown
      = [⟨str "root.d", str "s", 10, .LONG 5⟩, ⟨str "root.d", str "s", 21, .LONG 4⟩, ⟨str "root.d", str "s", 31, .LONG 7⟩] := by
    rw [hgrown]; decide +kernel
  refine ⟨s, hs, hst, ?_⟩
  have hser : ∀ d m, series (storedBy steadySchema steadyOps s.grown) d m = [] ∨
      series (storedBy steadySchema steadyOps s.grown) d m = [(10, .LONG 5), (21, .LONG 4), (31, .LONG 7)] := by
    intro d m
    rw [hst]
    by_cases h : str "root.d" = d ∧ str "s" = m
    · right; simp [series, h]
    · left; simp [series, h]
  have none : ∀ w k, steady w k [] := fun w k => ⟨0, fun i h => absurd h (by simp)⟩
  have h := C89_file Demo.envOk (schema := steadySchema) ⟨by decide, by decide⟩ hs (by rw [hgrown]; decide) (N := 8) ⟨by decide, by decide⟩ (by decide)
    (k := 1) (j := 3)
    (fun d m => by
      rcases hser d m with e | e <;> rw [e]
      · exact none _ _
      · refine ⟨10, fun i hi => ?_⟩
        rcases i with _ | _ | i <;> first | (revert hi; decide) | exact absurd hi (by simp))
    (fun d m => by rcases hser d m with e | e <;> rw [e] <;> exact none _ _)
    (fun d m => by
      rcases hser d m with e | e <;> rw [e]
      · exact none _ _
      · refine ⟨-1, fun i hi => ?_⟩
        rcases i with _ | _ | i <;> first | (revert hi; decide) | exact absurd hi (by simp [Ref.longs]))
  rw [hst, hgrown] at h
  exact h

end TsFile
