import Verif.Spec.Interface
/-! # Answers on one connection -/

namespace TsFile.Spec
open Thrift

/-- One answer for each call, in the order of the calls, behind a message of this number. -/
def answers : W32 → List (Call × Except AppError SyncStatus) → Bytes
  | _, [] => []
  | n, (call, a) :: rest => reply call (n + 1#32) a ++ answers (n + 1#32) rest

end TsFile.Spec
