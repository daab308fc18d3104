import Verif.Props.Thrift
/-! # Properties C60 and C61: the interface of the server -/

namespace TsFile.Thrift
open Spec

/-! ## C60: requests and answers are those of the interface -/

/-- **C60**, the client: the bytes that a call sends are the request of the interface in the binary protocol, with the next
number. -/
theorem C60_request (c : Client) (call : Call) (incoming : Option Bytes) :
    (c.invoke call incoming).2.1 = request call (c.sequenceNumber + 1#32) := invoke_sent c call incoming

/-- **C60**, the server: a request of the interface with complete arguments reaches the handler as the call it is, whatever
follows it on the connection, and the answer is the one of the interface with the number of the request, or an exception with the
same name and number if the handler failed. -/
theorem C60_answer (handler : Handler) (call : Call) (number : W32) (hsend : Sendable call)
    (h : ∀ i, call = .check i → i.address.isSome ∧ i.uuid.isSome ∧ i.partitionInterval.isSome ∧ i.version.isSome) (rest : Bytes) :
    process handler (request call number ++ rest) = some (some (call, rest), reply call number (handler call)) := by
  have hp := process_request handler call hsend number rest
  rw [arrives_complete h] at hp
  rw [hp, respond_eq]

/-- **C60**, the client: what the client returns for an answer of the interface, and that it leaves what follows. -/
theorem C60_understood (call : Call) (number : W32) (rest : Bytes) :
    (∀ s : SyncStatus, Text s.msg → receive number call.name (answer call number s ++ rest) = some (some s, rest))
    ∧ (∀ e : AppError, Text e.2 → receive number call.name (exception call number e ++ rest) = some (none, rest)) :=
  ⟨fun s h => receive_answer call number s h rest, fun e h => receive_exception call number e h rest⟩

/-! ## C61: peers with a newer interface -/

/-- **C61**, the client: a reply and a status in it may carry any other fields, in any order and of any type of the protocol: the
client returns the code and the text. -/
theorem C61_reply (c : Client) (call : Call) (rs fs : List (W16 × Val)) (code : W32) (text : Bytes)
    (hr : ∀ f ∈ rs, f.1 ≠ 0 → f.2.Fits 64) (hf : ∀ f ∈ fs, f.1 ≠ 1 → f.1 ≠ 2 → f.2.Fits 64) (ht : Text text)
    (h0 : rs.filter (fun f => f.1 = 0) = [(0, .struct (fields fs))])
    (h1 : fs.filter (fun f => f.1 = 1) = [(1, .i32 code)])
    (h2 : fs.filter (fun f => f.1 = 2) = [(2, .str text)]) :
    (c.invoke call (some (message (methodName call) .reply (c.sequenceNumber + 1#32) (.struct (fields rs))))).2.2
      = some ⟨code, text⟩ := by
  have hl : StatusFields fs := by
    refine fun f hm => ⟨fun e => ?_, fun e => ?_, hf f hm⟩
    · have : f ∈ fs.filter (fun f => f.1 = 1) := List.mem_filter.mpr ⟨hm, by simpa using e⟩
      rw [h1, List.mem_singleton] at this
      exact ⟨code, by rw [this]⟩
    · have : f ∈ fs.filter (fun f => f.1 = 2) := List.mem_filter.mpr ⟨hm, by simpa using e⟩
      rw [h2, List.mem_singleton] at this
      exact ⟨text, by rw [this], ht⟩
  have hres := readResult_fields rs fs ⟨code, text⟩ (readStatus_fields fs hl code text h1 h2) hr h0 []
  have := receive_reply call (c.sequenceNumber + 1#32) rs ⟨code, text⟩ [] hres
  rw [List.append_nil] at this
  simp only [Client.invoke, this]
  rfl

/-- **C61**, the client: a status without a code or without a text is an error, whatever else it carries. -/
theorem C61_incomplete (c : Client) (call : Call) (fs : List (W16 × Val)) (hf : ∀ f ∈ fs, f.1 ≠ 1 → f.1 ≠ 2 → f.2.Fits 64)
    (hcode : ∀ f ∈ fs, f.1 = 1 → ∃ code, f.2 = .i32 code) (htext : ∀ f ∈ fs, f.1 = 2 → ∃ text, f.2 = .str text ∧ Text text)
    (h : fs.filter (fun f => f.1 = 1) = [] ∨ fs.filter (fun f => f.1 = 2) = []) (number : W32) :
    (c.invoke call (some (message (methodName call) .reply number (.struct (fields [(0, .struct (fields fs))]))))).2.2 = none := by
  have hst := readStatus_incomplete fs (fun f hm => ⟨hcode f hm, htext f hm, hf f hm⟩) h
  have hres : readResult ((Val.struct (fields [(0, .struct (fields fs))])).bytes) = none := by
    have := hst [0]
    rw [readResult, readStruct]
    simp only [fields, Val.bytes, Fields.bytes, List.length_cons, Val.type] at this ⊢
    rw [fieldLoop, readFieldBegin_field _ (by decide)]
    simp only [resultField, if_true, into, this, Option.map_none]
    rfl
  have hm := readMsgBegin_message call .reply number (.struct (fields [(0, .struct (fields fs))])) []
  rw [List.append_nil, List.append_nil] at hm
  simp only [Client.invoke]
  unfold receive
  rw [hm]
  simp only [name_eq, if_true]
  by_cases hn : number = c.sequenceNumber + 1#32
  · rw [if_pos hn, if_neg (by decide), hres]
    rfl
  · rw [if_neg hn]
    rfl

/-- **C61**, the server: the arguments of a call may carry any other fields, in any order and of any type of the protocol: the
handler gets the call. Missing: `check`. -/
theorem C61_call_partial (handler : Handler) (call : Call) (hcall : ∀ i, call ≠ .check i) (hsend : Sendable call)
    (args : List (W16 × Val)) (hs : ∀ f ∈ args, f.1 ∉ (argFields call).map Prod.fst → f.2.Fits 64)
    (ha : args.filter (fun f => f.1 ∈ (argFields call).map Prod.fst) = argFields call) (type : MsgType) (number : W32) (rest : Bytes) :
    process handler (message (methodName call) type number (.struct (fields args)) ++ rest) = some (some (call, rest), reply call number (handler call)) := by
  rw [process_call handler call hcall hsend args hs ha type number rest, respond_eq]

/-- **C61**, the server, inside the argument of `check`: the information about the sender may carry any other fields, of any
type of the protocol: the handler gets the call. -/
theorem C61_confirm (handler : Handler) (i : ConfirmInfo) (hsend : Sendable (.check i))
    (hi : i.address.isSome ∧ i.uuid.isSome ∧ i.partitionInterval.isSome ∧ i.version.isSome) (fs : List (W16 × Val))
    (hs : ∀ f ∈ fs, ¬ (f.1 = 1 ∨ f.1 = 2 ∨ f.1 = 3 ∨ f.1 = 4) → f.2.Fits 64)
    (hf : fs.filter (fun f => f.1 = 1 ∨ f.1 = 2 ∨ f.1 = 3 ∨ f.1 = 4) = confirmFields i)
    (type : MsgType) (number : W32) (rest : Bytes) :
    process handler (message (methodName (.check i)) type number (.struct (fields [(-1, .struct (fields fs))])) ++ rest)
      = some (some (.check i, rest), reply (.check i) number (handler (.check i))) := by
  have hfull : filled i = i := by
    have := arrives_complete (call := .check i) (fun j hj => by cases hj; exact hi)
    simpa [arrives] using this
  have hconf := readConfirm_fields fs i (sendable_info hsend) hs hf
  rw [hfull] at hconf
  rw [process_check handler i _ i type number rest rest (readCheckArgs_one _ _ _ hconf rest), respond_eq]

/-- **C61**, the exception: the arguments of `check` may carry nothing else. With a small number in another field behind the
information about the sender, whatever its number, the handler gets another call: one with empty information. (The pattern for the
number -1 is a variable, which matches every field, and types are not compared: the number is read as the information.) Three bytes
are left, and the next call on the connection, whatever it is, cannot be read. -/
theorem C61_check_wrong (handler : Handler) (i : ConfirmInfo) (hsend : Sendable (.check i)) (id : W16) (type : MsgType) (number : W32) :
    (∃ out, process handler (message (methodName (.check i)) type number (.struct (fields
        [(-1, .struct (fields (confirmFields i))), (id, .i32 0#32)])))
      = some (some (.check emptyInfo, [0, 0, 0]), out))
    ∧ ∀ call n rest, process handler ([0, 0, 0] ++ (request call n ++ rest)) = none := by
  constructor
  · refine ⟨respond handler (methodName (.check i)) number (.check emptyInfo), ?_⟩
    have hall : ∀ f ∈ confirmFields i, confirmIds f := fun f hf => by
      obtain ⟨h, _⟩ | ⟨h, _⟩ | ⟨h, _⟩ | ⟨h, _⟩ := confirm_mem hf <;> simp [confirmIds, h]
    have hconf := readConfirm_fields _ i (sendable_info hsend) (fun f hf hn => absurd (hall f hf) hn)
      (List.filter_eq_self.mpr (fun f hf => by simpa using hall f hf))
    have h := process_check handler i [(-1, .struct (fields (confirmFields i))), (id, .i32 0#32)] emptyInfo type number [] [0, 0, 0] ?_
    · rw [List.append_nil] at h; exact h
    · rw [List.append_nil, readCheckArgs, readStruct]
      have h1 := hconf (typeNumber .i32 :: (beBytes 2 id.toNat ++ [0, 0, 0, 0, 0]))
      simp only [fields, Val.bytes, Fields.bytes, Val.type] at h1 ⊢
      have hz : be32 0#32 = [0, 0, 0, 0] := by decide
      simp only [hz, List.cons_append, List.nil_append]
      rw [List.length_cons, List.length_append, List.length_append, List.length_cons,
        show ∀ a b c : Nat, a + (b + (c + 1)) + 1 + 1 = a + b + c + 1 + 1 + 1 from fun a b c => by omega]
      rw [fieldLoop, readFieldBegin_field _ (by decide)]
      simp only [checkField, into, h1, Option.map_some]
      rw [fieldLoop, readFieldBegin_field _ (by decide)]
      rfl
  · intro call n rest
    have hn : ∃ a b m, request call n ++ rest = 0 :: a :: b :: m ∧ a = 0 := by
      have hs : ∀ name ∈ [str "check", str "startSync", str "init", str "syncDeletedFileName", str "initSyncData", str "syncData",
          str "checkDataDigest", str "endSync"], ∃ b m, be32 (u32 name.length) = 0 :: 0 :: b :: m := by
        intro name h
        simp only [List.mem_cons, List.not_mem_nil, or_false] at h
        obtain rfl | rfl | rfl | rfl | rfl | rfl | rfl | rfl := h <;> exact ⟨_, _, rfl⟩
      obtain ⟨b, m, h⟩ := hs (methodName call) (by cases call <;> simp [methodName])
      refine ⟨0, b, m ++ (methodName call ++ (messageNumber .call :: be32 n) ++ (Val.struct (fields (argFields call))).bytes ++ rest), ?_, rfl⟩
      simp only [request, message, msgHead, textBytes, h]
      simp
    obtain ⟨a, b, m, h, rfl⟩ := hn
    rw [h]
    rfl

/-! ## Cases -/

example (rest : Bytes) : process demoHandler (request (.syncData [255, 0]) 4#32 ++ rest)
    = some (some (.syncData [255, 0], rest), reply (.syncData [255, 0]) 4#32 (.ok ⟨1#32, TsFile.str "ok"⟩)) :=
  C60_answer demoHandler (.syncData [255, 0]) 4#32 ⟨by decide +kernel, by decide +kernel⟩ (fun _ h => by cases h) rest

-- a status without its text
example : (Client.new.invoke .startSync (some (message (methodName .startSync) .reply 1#32 (.struct (fields
    [(0, .struct (fields [(1, .i32 3#32)]))]))))).2.2 = none :=
  C61_incomplete Client.new .startSync [(1, .i32 3#32)] (by simp) (by simp) (by simp) (.inr (by decide)) 1#32

/-- A newer reply: an unknown structure before the status, a number in the status, and another order. -/
example : (Client.new.invoke .startSync (some (message (methodName .startSync) .reply 1#32 (.struct (fields
      [(7, .struct (fields [(1, .list .string (.cons (.str [65]) .nil))])),
       (0, .struct (fields [(9, .i64 5#64), (2, .str [7]), (1, .i32 3#32),
         (-4, .map .i08 .bool (.cons (.i08 3) (.cons (.bool true) .nil)))]))]))))).2.2 = some ⟨3#32, [7]⟩ :=
  C61_reply Client.new .startSync _ _ _ _
    (by intro f hf h; simp only [List.mem_cons, List.not_mem_nil, or_false] at hf
        obtain rfl | rfl := hf
        · simp only [fields, Val.Fits, Fields.Fits, Vals.Fits, Vals.length, Val.type, and_true, true_and]
          exact ⟨by decide, by decide +kernel, by decide⟩
        · exact absurd rfl h)
    (by intro f hf h h'; simp only [List.mem_cons, List.not_mem_nil, or_false] at hf
        obtain rfl | rfl | rfl | rfl := hf
        · simp [Val.Fits]
        · exact absurd rfl h'
        · exact absurd rfl h
        · simp [Val.Fits, Vals.FitPairs, Vals.length, Val.type])
    ⟨by decide +kernel, by decide⟩ rfl rfl rfl

/-- A newer call. -/
example : ∃ out, process demoHandler (message (methodName (.syncData [1, 2])) .call 4#32 (.struct (fields
    [(2, .i64 5#64), (1, .str [1, 2]), (3, .double 0#64)])) ++ [9]) = some (some (.syncData [1, 2], [9]), out) :=
  ⟨_, C61_call_partial demoHandler (.syncData [1, 2]) (by simp) ⟨by decide +kernel, by decide +kernel⟩ _
    (by intro f hf h; simp only [List.mem_cons, List.not_mem_nil, or_false] at hf
        obtain rfl | rfl | rfl := hf
        · simp [Val.Fits]
        · simp [argFields] at h
        · simp [Val.Fits])
    rfl .call 4#32 [9]⟩

/-- A newer `check`. -/
example : ∃ out, process demoHandler (message (methodName lonely) .call 4#32 (.struct (fields
    [(-1, .struct (fields (confirmFields ⟨some (TsFile.str "host"), none, none, none⟩))), (2, .i32 0#32)])))
      = some (some (.check emptyInfo, [0, 0, 0]), out) :=
  (C61_check_wrong demoHandler ⟨some (TsFile.str "host"), none, none, none⟩ lonely_sendable 2 .call 4#32).1

end TsFile.Thrift
