import Verif.Model.Prim
/-! # UTF-8 -/

namespace TsFile.Spec

/-- Bytes that are UTF-8: the encodings of some characters one after the other. (`Char` is a Unicode scalar value and
`String.utf8EncodeChar` its encoding in Lean's library.) -/
def Utf8 (v : Bytes) : Prop := ∃ cs : List Char, v = cs.flatMap String.utf8EncodeChar

end TsFile.Spec
