import Verif.Spec.Power
import Verif.Spec.Recover
import Mathlib.Tactic.Basic
/-! # What is safe stays safe -/

namespace TsFile.Power
open Spec

theorem blank_length (block safe : Nat) (keep : Nat → Bool) : ∀ (b : Bytes) (i : Nat), (blank block safe keep i b).length = b.length
  | [], _ => rfl
  | _ :: r, i => by rw [blank, List.length_cons, List.length_cons, blank_length block safe keep r]

theorem blank_append (block safe : Nat) (keep : Nat → Bool) : ∀ (a b : Bytes) (i : Nat),
    blank block safe keep i (a ++ b) = blank block safe keep i a ++ blank block safe keep (i + a.length) b
  | [], _, _ => rfl
  | x :: r, b, i => by
    rw [List.cons_append, blank, blank, blank_append block safe keep r, List.cons_append, List.length_cons, Nat.add_right_comm, ← Nat.add_assoc]

theorem blank_safe (block safe : Nat) (keep : Nat → Bool) : ∀ (b : Bytes) (i : Nat), i + b.length ≤ safe → blank block safe keep i b = b
  | [], _, _ => rfl
  | x :: r, i, h => by
    rw [List.length_cons] at h
    rw [blank, if_pos (.inl (by omega)), blank_safe block safe keep r (i + 1) (by omega)]

theorem blank_keep (block safe : Nat) : ∀ (b : Bytes) (i : Nat), blank block safe (fun _ => true) i b = b
  | [], _ => rfl
  | x :: r, i => by rw [blank, if_pos (.inr rfl), blank_keep block safe r]

/-- These bytes are at the front of the file and on the medium. -/
structure Keeps (P : Bytes) (f : File) : Prop where
  front : P <+: f.content
  safe : P.length ≤ f.safe
  bound : f.safe ≤ f.content.length

theorem keeps_step {P : Bytes} {f : File} (h : Keeps P f) (a : Act) : Keeps P (step f a) := by
  cases a with
  | write b => exact ⟨h.front.trans (List.prefix_append _ _), h.safe, Nat.le_trans h.bound (by simp [step])⟩
  | sync => exact ⟨h.front, h.front.length_le, Nat.le_refl _⟩

theorem keeps_run {P : Bytes} (acts : List Act) : ∀ {f : File}, Keeps P f → Keeps P (run f acts) := by
  induction acts with
  | nil => intro f h; exact h
  | cons a acts ih => intro f h; exact ih (keeps_step h a)

theorem run_append (f : File) (a b : List Act) : run f (a ++ b) = run (run f a) b := List.foldl_append

theorem run_writes (pieces : List Bytes) : ∀ f : File, run f (pieces.map .write) = { f with content := f.content ++ pieces.flatten } := by
  induction pieces with
  | nil => intro f; simp [run]
  | cons b r ih =>
    intro f
    have := ih (step f (.write b))
    rw [List.map_cons, run, List.foldl_cons]
    rw [run] at this
    rw [this]
    simp [step]

theorem keeps_left {P : Bytes} {f : File} (h : Keeps P f) {block : Nat} {left : Bytes} (hl : LeftOver block f left) : P <+: left := by
  obtain ⟨n, keep, h1, h2, rfl⟩ := hl
  obtain ⟨t, ht⟩ := h.front
  have hn : P.length ≤ n := Nat.le_trans h.safe h1
  rw [torn, ← ht, List.take_append, List.take_of_length_le hn, blank_append,
    blank_safe _ _ _ _ _ (by rw [Nat.zero_add]; exact h.safe)]
  exact List.prefix_append _ _

theorem left_length {f : File} {block : Nat} {left : Bytes} (hl : LeftOver block f left) : left.length ≤ f.content.length := by
  obtain ⟨n, keep, h1, h2, rfl⟩ := hl
  rw [torn, blank_length, List.length_take]
  exact Nat.min_le_right _ _

/-- A beginning of a file, of which nothing is safe, may be left. -/
theorem left_take (block : Nat) (content : Bytes) (n : Nat) (hn : n ≤ content.length) : LeftOver block ⟨content, 0⟩ (content.take n) :=
  ⟨n, fun _ => true, Nat.zero_le _, hn, by rw [torn, blank_keep]⟩

theorem blank_lost (block : Nat) : ∀ (b : Bytes) (i : Nat), blank block 0 (fun _ => false) i b = List.replicate b.length 0
  | [], _ => rfl
  | x :: r, i => by
    rw [blank, if_neg (by simp), blank_lost block r, List.length_cons, List.replicate_succ]

/-- Zeros may be left of a file of which nothing is safe. -/
theorem left_zeros (block : Nat) (content : Bytes) (n : Nat) (hn : n ≤ content.length) :
    LeftOver block ⟨content, 0⟩ (List.replicate n 0) :=
  ⟨n, fun _ => false, Nat.zero_le _, hn, by rw [torn, blank_lost, List.length_take, Nat.min_eq_left hn]⟩

/-- The part behind the safe one may be lost in whole, up to the first byte. -/
theorem left_safe_only (block : Nat) (f : File) (h : f.safe ≤ f.content.length) : LeftOver block f (f.content.take f.safe) :=
  ⟨f.safe, fun _ => false, Nat.le_refl _, h, by rw [torn, blank_safe _ _ _ _ _ (by rw [Nat.zero_add, List.length_take]; exact Nat.min_le_left _ _)]⟩

theorem zeros_head (n : Nat) : (List.replicate n (0 : UInt8)).take 7 ≠ Spec.head := by
  rw [List.take_replicate]
  intro h
  have h84 : (84 : UInt8) ∈ Spec.head := by decide
  rw [← h] at h84
  have := List.mem_replicate.1 h84
  exact absurd this.2 (by decide)

end TsFile.Power
