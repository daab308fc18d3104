import Verif.Spec.CAbort
import Verif.Spec.Isolated
/-! # Programs of the C interface that hand over their points in order -/

namespace TsFile.Spec
open CApi (Addr CCall)

/-- A call in order, given the calls made before and what they returned. A schema is made from two strings, the measurement without
dots, with the type INT32 and known codes. A writer is opened for a file that can be created. A point goes to the series of the
schema of its writer, with a timestamp that is not negative and larger than those written through the same handle before; there
are at most a hundred million. Nothing is said about what the call returns. -/
def CallInOrder (ce : CApi.CEnv) (H : List (CCall × CApi.Outcome)) : CCall → Prop
  | .newString s => ce.utf8 s = true
  | .freeString _ | .schemaFree _ | .fileWriterClose _ => True
  | .schemaSimple da ma x y z =>
    (∃ d m, (.newString d, .ok da) ∈ H ∧ (.newString m, .ok ma) ∈ H ∧ d.length + 1 + m.length ≤ 100 ∧ NoDot m)
    ∧ x = 1 ∧ (y = 0 ∨ y = 4) ∧ (z = 0 ∨ z = 1)
  | .fileWriterNew fa _ => ∃ f, (.newString f, .ok fa) ∈ H ∧ ce.canCreate f = true
  | .fileWriterWriteInt32 w da ma t _ =>
    (∃ f d m ms, OpenedAs H w f d m ms ∧ (.newString d, .ok da) ∈ H ∧ (.newString m, .ok ma) ∈ H)
    ∧ 0 ≤ t.toInt ∧ (∀ da' ma' t' v' r, (.fileWriterWriteInt32 w da' ma' t' v', .ok r) ∈ H → t'.toInt < t.toInt)
    ∧ (writesTo w [] H).length < 100000000

end TsFile.Spec
