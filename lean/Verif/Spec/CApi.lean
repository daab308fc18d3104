import Verif.Model.CApi
import Verif.Spec.Machine
/-! # The rules for a C program that uses the library, and what it may rely on -/

namespace TsFile.Spec
open CApi (Addr CCall)

/-- What a C program knows: its strings, the handles it holds, and for each handle the strings that it passed for it. -/
structure Holds where
  strings : List Addr
  schemas : List (Addr × List Addr)
  writers : List (Addr × List Addr)

/-- A string that was passed for some handle that is still held. -/
def Holds.Needed (h : Holds) (p : Addr) : Prop :=
  (∃ e ∈ h.schemas, p ∈ e.2) ∨ (∃ e ∈ h.writers, p ∈ e.2)

/-- The rules: only pass strings that were not freed and handles that were not given back; do not free a string that was passed
for a handle that is still held. Null pointers may be passed, except for a schema to `file_writer_new`. -/
def Holds.Allows (h : Holds) : CCall → Prop
  | .newString _ => True
  | .freeString p => p ∈ h.strings ∧ ¬ h.Needed p
  | .schemaSimple d m _ _ _ => (d = 0 ∨ d ∈ h.strings) ∧ (m = 0 ∨ m ∈ h.strings)
  | .schemaFree s => s = 0 ∨ s ∈ h.schemas.map Prod.fst
  | .fileWriterNew f s => (f = 0 ∨ f ∈ h.strings) ∧ s ∈ h.schemas.map Prod.fst
  | .fileWriterWriteInt32 w d m _ _ => (w = 0 ∨ w ∈ h.writers.map Prod.fst) ∧ (d = 0 ∨ d ∈ h.strings) ∧ (m = 0 ∨ m ∈ h.strings)
  | .fileWriterClose w => w = 0 ∨ w ∈ h.writers.map Prod.fst

/-- The strings passed for a handle. -/
def passed (p : Addr) (l : List (Addr × List Addr)) : List Addr := (l.filter (fun e => e.1 = p)).flatMap Prod.snd

/-- What the program holds after a call that returned `r`: a constructor gives a new handle, a write gives the handle back, free
and close give up exactly the handle passed, and a new writer leaves the handle of its schema as it is. -/
def Holds.after (h : Holds) (r : Addr) : CCall → Holds
  | .newString _ => { h with strings := r :: h.strings }
  | .freeString p => { h with strings := h.strings.filter (fun q => q ≠ p) }
  | .schemaSimple d m _ _ _ => { h with schemas := (r, [d, m]) :: h.schemas }
  | .schemaFree s => { h with schemas := h.schemas.filter (fun e => e.1 ≠ s) }
  | .fileWriterNew _ s => { h with writers := (r, passed s h.schemas) :: h.writers }
  | .fileWriterWriteInt32 w _ m _ _ =>
    { h with writers := (w, passed w h.writers ++ [m]) :: h.writers.filter (fun e => e.1 ≠ w) }
  | .fileWriterClose w => { h with writers := h.writers.filter (fun e => e.1 ≠ w) }

/-- What a returned pointer must be: a new one from the constructors, the same one from a write, nothing from free and close. -/
def Holds.Returns (h : Holds) (r : Addr) : CCall → Prop
  | .newString _ | .schemaSimple .. | .fileWriterNew .. =>
    r ≠ 0 ∧ r ∉ h.strings ∧ r ∉ h.schemas.map Prod.fst ∧ r ∉ h.writers.map Prod.fst
  | .fileWriterWriteInt32 w .. => r = w
  | .freeString _ | .schemaFree _ | .fileWriterClose _ => r = 0

/-- The program holds nothing. -/
def Holds.nothing : Holds := ⟨[], [], []⟩

/-- A program obeys the rules, given what its calls return. -/
def Obeys : Holds → List CCall → List CApi.Outcome → Prop
  | h, c :: cs, .ok r :: os => h.Allows c ∧ Obeys (h.after r c) cs os
  | h, c :: _, _ => h.Allows c
  | _, [], _ => True

/-- All calls of a program behave: none is undefined, and each returned pointer is as it must be. -/
def Behaves : Holds → List CCall → List CApi.Outcome → Prop
  | h, c :: cs, .ok r :: os => h.Returns r c ∧ Behaves (h.after r c) cs os
  | _, _ :: _, os => os = [.abort]
  | _, [], os => os = []

/-- What a program holds at its end. -/
def held : Holds → List CCall → List CApi.Outcome → Holds
  | h, c :: cs, .ok r :: os => held (h.after r c) cs os
  | h, _, _ => h

/-- The text of a string, given the strings made so far. -/
def text (p : Addr) : List (Addr × Bytes) → Bytes
  | [] => []
  | e :: l => if e.1 = p then e.2 else text p l

/-- The points written through a handle in a history of calls and outcomes; `texts` are the strings made before. -/
def writesTo (p : Addr) : List (Addr × Bytes) → List (CCall × CApi.Outcome) → List Op
  | _, [] => []
  | texts, (.newString s, .ok r) :: h => writesTo p ((r, s) :: texts) h
  | texts, (.fileWriterWriteInt32 w d m t v, .ok _) :: h =>
    if w = p then .write (text d texts) (text m texts) t (.INT v) :: writesTo p texts h else writesTo p texts h
  | texts, _ :: h => writesTo p texts h

/-- In a history, the handle `p` was made for the file `f` and for a schema with one device `d` and one measurement `m`. -/
def OpenedAs (H : List (CCall × CApi.Outcome)) (p : Addr) (f d m : Bytes) (ms : MeasurementSchema) : Prop :=
  ∃ fa sa da ma x y z,
    (.newString f, .ok fa) ∈ H ∧ (.newString d, .ok da) ∈ H ∧ (.newString m, .ok ma) ∈ H
    ∧ (.schemaSimple da ma x y z, .ok sa) ∈ H ∧ (.fileWriterNew fa sa, .ok p) ∈ H
    ∧ TSDataType.tryFrom x = some ms.dataType ∧ TSEncoding.tryFrom y = some ms.encoding
    ∧ CompressionType.tryFrom z = some ms.compression

end TsFile.Spec
