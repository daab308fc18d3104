import Verif.Proofs.CAbort
import Verif.Props.Example
/-! # Properties C46, C54 and C65: the C interface -/

namespace TsFile
open Spec CApi

/-- **C46**, for programs that also keep every string they passed for a handle as long as they hold the handle: whatever the calls
and their arguments are, no call is undefined; a call either aborts the process or returns what it must return (a new handle from
a constructor, the same handle from a write); and at the end the memory contains exactly the schemas and writers that the program
holds, each once. Missing: programs that free such a string earlier (`C46_string_wrong`). -/
theorem C46_handles_partial (ce : CEnv) (cs : List CCall) (h : Obeys Holds.nothing cs (run ce start cs).1) :
    Behaves Holds.nothing cs (run ce start cs).1
    ∧ (run ce start cs).2.schemas.map Prod.fst = (held Holds.nothing cs (run ce start cs).1).schemas.map Prod.fst
    ∧ (run ce start cs).2.writers.map Prod.fst = (held Holds.nothing cs (run ce start cs).1).writers.map Prod.fst := by
  obtain ⟨h1, h2⟩ := run_good ce cs start Holds.nothing sim_start h
  exact ⟨h1, h2.schemas, h2.writers⟩

/-- **C46**: such a program that does not abort makes all its calls, each returns a pointer. -/
theorem C46_all_calls (ce : CEnv) (cs : List CCall) (h : Obeys Holds.nothing cs (run ce start cs).1)
    (hab : .abort ∉ (run ce start cs).1) : ∃ rs : List Addr, rs.length = cs.length ∧ (run ce start cs).1 = rs.map .ok := by
  have key : ∀ (cs : List CCall) (h : Holds) (os : List Outcome), Behaves h cs os → .abort ∉ os →
      ∃ rs : List Addr, rs.length = cs.length ∧ os = rs.map .ok := by
    intro cs
    induction cs with
    | nil => intro h os hb _; exact ⟨[], rfl, hb⟩
    | cons c cs ih =>
      intro h os hb hn
      cases os with
      | nil => cases (show ([] : List Outcome) = [.abort] from hb)
      | cons o os =>
        cases o with
        | ok r =>
          obtain ⟨rs, h1, h2⟩ := ih _ os hb.2 (fun hm => hn (List.mem_cons_of_mem _ hm))
          exact ⟨r :: rs, by rw [List.length_cons, h1, List.length_cons], by rw [h2]; rfl⟩
        | abort => exact absurd (List.mem_cons_self ..) hn
        | ub => cases (show Outcome.ub :: os = [.abort] from hb)
  exact key cs _ _ (C46_handles_partial ce cs h).1 hab

/-- **C54**: in every program, whatever else it does (other schemas, other writers, calls in any order): the file of a writer that
was closed is the file of the session that writes, with the schema of that writer, the points that were written through its
handle, in order. -/
theorem C54_file_of_session (ce : CEnv) (cs : List CCall) (p r : Addr) (hp : p ≠ 0)
    (hc : (.fileWriterClose p, .ok r) ∈ cs.zip (run ce start cs).1) :
    ∃ f d m ms s, OpenedAs (cs.zip (run ce start cs).1) p f d m ms
      ∧ session ce.env [(d, [(m, ms)])] (writesTo p [] (cs.zip (run ce start cs).1)) = some s
      ∧ (∀ r ∈ s.results, r = .ok ()) ∧ (f, s.file) ∈ (run ce start cs).2.files := by
  have h := inv_run ce cs start [] (inv_start ce)
  rw [List.nil_append] at h
  exact (h.closed p r hp hc).2.2

/-- **C65**: in a program as in C46, a call aborts the process exactly if there is one of the stated reasons, which are about the
calls made before and what they returned. -/
theorem C65_aborts (ce : CEnv) (cs : List CCall) (h : Obeys Holds.nothing cs (run ce start cs).1) (k : Nat) (c : CCall)
    (o : Outcome) (hc : cs[k]? = some c) (ho : (run ce start cs).1[k]? = some o) :
    o = .abort ↔ AbortReason ce ((cs.zip (run ce start cs).1).take k) c := by
  have := run_abort ce cs start Holds.nothing [] sim_start (inv_start ce) once_start h k c o hc ho
  rw [List.nil_append] at this
  exact this

/-- **C65**: a program as in C46 without a reason to abort makes all its calls. -/
theorem C65_completes (ce : CEnv) (cs : List CCall) (h : Obeys Holds.nothing cs (run ce start cs).1)
    (hno : ∀ k c, cs[k]? = some c → ¬ AbortReason ce ((cs.zip (run ce start cs).1).take k) c) :
    ∃ rs : List Addr, rs.length = cs.length ∧ (run ce start cs).1 = rs.map .ok := by
  refine C46_all_calls ce cs h (fun hab => ?_)
  obtain ⟨k, hk, hx⟩ := List.getElem_of_mem hab
  have hlen : (run ce start cs).1.length ≤ cs.length := by
    have : ∀ (cs : List CCall) (st : State), (run ce st cs).1.length ≤ cs.length := by
      intro cs
      induction cs with
      | nil => intro st; exact Nat.le_refl _
      | cons c cs ih =>
        intro st
        rw [run]
        rcases step ce st c with ⟨o, st'⟩
        cases o with
        | ok r => exact Nat.succ_le_succ (ih st')
        | abort => exact Nat.succ_le_succ (Nat.zero_le _)
        | ub => exact Nat.succ_le_succ (Nat.zero_le _)
    exact this cs start
  have hkc : k < cs.length := Nat.lt_of_lt_of_le hk hlen
  have hc : cs[k]? = some cs[k] := List.getElem?_eq_getElem hkc
  exact hno k _ hc ((C65_aborts ce cs h k _ .abort hc (by rw [List.getElem?_eq_getElem hk, hx])).1 rfl)

/-! ## Cases -/

namespace Demo

instance (h : Holds) (p : Addr) : Decidable (h.Needed p) := by unfold Holds.Needed; infer_instance

instance (h : Holds) (c : CCall) : Decidable (h.Allows c) := by cases c <;> (unfold Holds.Allows; infer_instance)

instance decObeys : ∀ (h : Holds) (cs : List CCall) (os : List Outcome), Decidable (Obeys h cs os)
  | h, c :: cs, .ok r :: os =>
    have := decObeys (h.after r c) cs os
    inferInstanceAs (Decidable (h.Allows c ∧ Obeys (h.after r c) cs os))
  | h, c :: _, .abort :: _ => inferInstanceAs (Decidable (h.Allows c))
  | h, c :: _, .ub :: _ => inferInstanceAs (Decidable (h.Allows c))
  | h, c :: _, [] => inferInstanceAs (Decidable (h.Allows c))
  | _, [], os => by cases os <;> exact inferInstanceAs (Decidable True)

/-- ASCII is UTF-8; every file can be created. -/
def cenv : CEnv := { env := env, utf8 := fun s => s.all (fun c => c < 128), canCreate := fun _ => true }

/-- Two writers from one schema, interleaved. The schema is freed before the writers are closed. -/
def cprogram : List CCall :=
  [.newString (str "d1"), .newString (str "s1"), .newString (str "a.tsfile"), .newString (str "b.tsfile"),
   .schemaSimple 1 2 1 4 0, .fileWriterNew 3 5, .fileWriterNew 4 5, .freeString 3, .schemaFree 5,
   .fileWriterWriteInt32 6 1 2 10 7, .fileWriterWriteInt32 7 1 2 3 4, .fileWriterWriteInt32 6 1 2 11 8,
   .fileWriterClose 6, .fileWriterWriteInt32 7 1 2 5 5, .fileWriterClose 7, .freeString 1, .freeString 2, .fileWriterClose 0]

end Demo

example : Obeys Holds.nothing Demo.cprogram (run Demo.cenv start Demo.cprogram).1 := by decide +kernel

example : (run Demo.cenv start Demo.cprogram).1 = [1, 2, 3, 4, 5, 6, 7, 0, 0, 6, 7, 6, 0, 7, 0, 0, 0, 0].map Outcome.ok := by
  decide +kernel

example : writesTo 7 [] (Demo.cprogram.zip (run Demo.cenv start Demo.cprogram).1)
    = [.write (str "d1") (str "s1") 3 (.INT 4), .write (str "d1") (str "s1") 5 (.INT 5)] := by decide +kernel

example : (.fileWriterClose 7, .ok 0) ∈ Demo.cprogram.zip (run Demo.cenv start Demo.cprogram).1 := by decide +kernel

example : Behaves Holds.nothing Demo.cprogram (run Demo.cenv start Demo.cprogram).1 :=
  (C46_handles_partial Demo.cenv Demo.cprogram (by decide +kernel)).1

example : ∃ rs : List Addr, rs.length = 18 ∧ (run Demo.cenv start Demo.cprogram).1 = rs.map .ok :=
  C46_all_calls Demo.cenv Demo.cprogram (by decide +kernel) (by decide +kernel)

example : ∃ f d m ms s, OpenedAs (Demo.cprogram.zip (run Demo.cenv start Demo.cprogram).1) 7 f d m ms
    ∧ session Demo.cenv.env [(d, [(m, ms)])] (writesTo 7 [] (Demo.cprogram.zip (run Demo.cenv start Demo.cprogram).1)) = some s
    ∧ (∀ r ∈ s.results, r = .ok ()) ∧ (f, s.file) ∈ (run Demo.cenv start Demo.cprogram).2.files :=
  C54_file_of_session Demo.cenv Demo.cprogram 7 0 (by decide) (by decide +kernel)

/-- A handle that was given back: the rules are broken, and the behaviour is undefined. -/
example : (run Demo.cenv start (Demo.cprogram ++ [.fileWriterClose 7])).1.getLast? = some .ub := by decide +kernel

/-- An unknown code for the data type aborts. -/
example : (run Demo.cenv start [.newString (str "d1"), .newString (str "s1"), .schemaSimple 1 2 9 4 0]).1
    = [.ok 1, .ok 2, .abort] := by decide +kernel

/-- A program that obeys the rules and aborts in its last call, because the point is older than the one before. -/
def Demo.cstale : List CCall := Demo.cprogram.take 12 ++ [.fileWriterWriteInt32 6 1 2 11 8]

example : Obeys Holds.nothing Demo.cstale (run Demo.cenv start Demo.cstale).1
    ∧ (run Demo.cenv start Demo.cstale).1[12]? = some .abort := by decide +kernel

example : AbortReason Demo.cenv ((Demo.cstale.zip (run Demo.cenv start Demo.cstale).1).take 12)
    (.fileWriterWriteInt32 6 1 2 11 8) :=
  (C65_aborts Demo.cenv Demo.cstale (by decide +kernel) 12 _ .abort (by decide +kernel) (by decide +kernel)).1 rfl

/-- **C46** is false for programs that free the strings they passed in a call that has returned. Here the measurement is passed
to a write in a fresh string, the write succeeds, the string is freed, and the next write is undefined. No handle was given
back. -/
theorem C46_string_wrong : (run Demo.cenv start
    [.newString (str "d1"), .newString (str "s1"), .newString (str "a.tsfile"), .schemaSimple 1 2 1 4 0, .fileWriterNew 3 4,
     .newString (str "s1"), .fileWriterWriteInt32 5 1 6 10 7, .freeString 6, .fileWriterWriteInt32 5 1 2 11 8]).1
    = [.ok 1, .ok 2, .ok 3, .ok 4, .ok 5, .ok 6, .ok 5, .ok 0, .ub] := by decide +kernel

end TsFile
