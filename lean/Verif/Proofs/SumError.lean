import Verif.Proofs.Rounding
import Verif.Props.Sums
/-! # How far a floating point sum is from the exact one -/

namespace TsFile
open Spec

/-- The sum of no numbers, and of zeros, is zero. -/
theorem addedUp_nil {env : Env} (hi : IeeeOk env) {r : W64} (h : AddedUp env.f64Add 0 [] r) : f64Val r = some 0 := by
  have := addedUp_exact hi (k := 0) (by omega) h [] rfl (by simp) (by simp)
  simpa using this

/-- The doubles `xs` are the numbers `zs`, each rounded. -/
inductive Rounded : List W64 → List Int → Prop
  | nil : Rounded [] []
  | cons {x xs z zs y} (h : f64Val x = some y) (hn : 2 ^ 53 * (y - z).natAbs ≤ z.natAbs) (ht : Rounded xs zs) :
      Rounded (x :: xs) (z :: zs)

theorem Rounded.split {xs ys : List W64} {zs : List Int} (h : Rounded (xs ++ ys) zs) :
    ∃ z1 z2, zs = z1 ++ z2 ∧ Rounded xs z1 ∧ Rounded ys z2 := by
  induction xs generalizing zs with
  | nil => exact ⟨[], zs, rfl, .nil, h⟩
  | cons x xs ih =>
    cases h with
    | cons h1 h2 h3 =>
      obtain ⟨z1, z2, rfl, g1, g2⟩ := ih h3
      exact ⟨_ :: z1, z2, rfl, .cons h1 h2 g1, g2⟩

theorem Rounded.length {xs : List W64} {zs : List Int} (h : Rounded xs zs) : zs.length = xs.length := by
  induction h with
  | nil => rfl
  | cons _ _ _ ih => simp [ih]

/-- The error of a sum of `n` numbers is at most `n * 2^-52` times the sum of the magnitudes. -/
theorem addedUp_near {env : Env} (hi : IeeeRounds env) {xs : List W64} {r : W64} (h : AddedUp env.f64Add 0 xs r)
    (zs : List Int) (hz : Rounded xs zs) (hn : zs.length ≤ 2 ^ 52) (hb : 2 * (zs.map Int.natAbs).sum ≤ f64Max) :
    ∃ z, f64Val r = some z ∧ 2 ^ 52 * (z - zs.sum).natAbs ≤ zs.length * (zs.map Int.natAbs).sum := by
  induction h generalizing zs with
  | nothing =>
    cases hz
    exact ⟨0, f64Val_enc false 0 (by omega), by simp⟩
  | one x =>
    cases hz with
    | cons h1 h2 h3 =>
      cases h3
      refine ⟨_, h1, ?_⟩
      simp only [List.sum_cons, List.sum_nil, List.map_cons, List.map_nil, List.length_cons, List.length_nil]
      omega
  | @both xs ys a b hxa hyb iha ihb =>
    obtain ⟨z1, z2, rfl, e1, e2⟩ := hz.split
    rw [List.map_append, List.sum_append] at hb ⊢
    rw [List.length_append] at hn ⊢
    rw [List.sum_append]
    obtain ⟨za, ha, na⟩ := iha z1 e1 (by omega) (by omega)
    obtain ⟨zb, hbv, nb⟩ := ihb z2 e2 (by omega) (by omega)
    have hs1 := natAbs_sum z1
    have hs2 := natAbs_sum z2
    have l1 := e1.length
    have l2 := e2.length
    by_cases h1 : z1 = []
    · subst h1
      have hx : xs = [] := List.eq_nil_of_length_eq_zero (by simpa using l1.symm)
      subst hx
      have h0 := addedUp_nil hi.toIeeeOk hxa
      refine ⟨zb, ?_, by simpa using nb⟩
      have := hi.add a b b 0 zb h0 hbv (by rw [Int.zero_add]; exact hbv)
      rwa [Int.zero_add] at this
    by_cases h2 : z2 = []
    · subst h2
      have hy : ys = [] := List.eq_nil_of_length_eq_zero (by simpa using l2.symm)
      subst hy
      have h0 := addedUp_nil hi.toIeeeOk hyb
      refine ⟨za, ?_, by simpa using na⟩
      have := hi.add a b a za 0 ha h0 (by rw [Int.add_zero]; exact ha)
      rwa [Int.add_zero] at this
    have p1 : 1 ≤ z1.length := List.length_pos_iff.2 h1
    have p2 : 1 ≤ z2.length := List.length_pos_iff.2 h2
    generalize z1.length = n1 at *
    generalize z2.length = n2 at *
    generalize (z1.map Int.natAbs).sum = M1 at *
    generalize (z2.map Int.natAbs).sum = M2 at *
    generalize z1.sum = S1 at *
    generalize z2.sum = S2 at *
    have b1 : n1 * M1 ≤ 2 ^ 52 * M1 := Nat.mul_le_mul_right _ (by omega)
    have b2 : n2 * M2 ≤ 2 ^ 52 * M2 := Nat.mul_le_mul_right _ (by omega)
    have c1 : (za - S1).natAbs ≤ M1 := by omega
    have c2 : (zb - S2).natAbs ≤ M2 := by omega
    obtain ⟨z, hz, hnear⟩ := hi.addNear a b za zb ha hbv (by omega)
    refine ⟨z, hz, ?_⟩
    have q1 : M2 ≤ n1 * M2 := Nat.le_mul_of_pos_left _ p1
    have q2 : M1 ≤ n2 * M1 := Nat.le_mul_of_pos_left _ p2
    rw [Nat.add_mul, Nat.mul_add, Nat.mul_add]
    generalize n1 * M1 = A at *
    generalize n1 * M2 = B at *
    generalize n2 * M1 = C at *
    generalize n2 * M2 = D at *
    omega

end TsFile
