import Verif.Model.Output
/-! # What an inner writer may do -/

namespace TsFile.Spec

/-- Some calls of `write` on the bare inner writer: its last state and what it returned. -/
def calls {σ : Type} (dev : Device σ) (s : σ) : List Bytes → σ × List (Except IoErr Nat)
  | [] => (s, [])
  | b :: bs => ((calls dev (dev s b).1 bs).1, (dev s b).2 :: (calls dev (dev s b).1 bs).2)

/-- The number of bytes taken in some calls. -/
def taken : List (Except IoErr Nat) → Nat
  | [] => 0
  | .ok n :: rs => n + taken rs
  | .error _ :: rs => taken rs

/-- `content s` is what the inner writer stored: `write` appends the bytes it says it took, and no others. -/
structure Stores {σ : Type} (dev : Device σ) (content : σ → Bytes) : Prop where
  ok : ∀ s b n, (dev s b).2 = .ok n → n ≤ b.length ∧ content (dev s b).1 = content s ++ b.take n
  error : ∀ s b e, (dev s b).2 = .error e → content (dev s b).1 = content s

/-- The inner writer never fails and always takes at least one byte. -/
def Accepts {σ : Type} (dev : Device σ) : Prop := ∀ s b, b ≠ [] → ∃ n, (dev s b).2 = .ok (n + 1)

/-- The inner writer always takes everything it is offered (as `Vec<u8>` does). -/
def TakesAll {σ : Type} (dev : Device σ) : Prop := ∀ s b, (dev s b).2 = .ok b.length

/-- A writer that takes at most `k` bytes per call. -/
def chunked (k : Nat) : Device Bytes := fun s b => (s ++ b.take k, .ok (b.take k).length)

/-- A writer with room for `n` bytes: it takes what fits and fails when nothing fits. -/
def limited (n : Nat) : Device Bytes := fun s b =>
  if b ≠ [] ∧ n ≤ s.length then (s, .error .other) else (s ++ b.take (n - s.length), .ok (b.take (n - s.length)).length)

end TsFile.Spec
