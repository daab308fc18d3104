import Verif.Proofs.Interface
/-! # Properties C48 and C53: remote calls -/

namespace TsFile.Thrift
open Spec

/-! ## C48: only the matching reply -/

theorem receive_some {seq : W32} {name b r : Bytes} {st : Option SyncStatus} (h : receive seq name b = some (st, r)) :
    ∃ ty body, readMsgBegin b = some ((name, ty, seq), body) ∧ (st.isSome → ty = .reply) := by
  unfold receive at h
  cases hb : readMsgBegin b with
  | none => simp [hb] at h
  | some p =>
    obtain ⟨⟨n, ty, s⟩, body⟩ := p
    simp only [hb] at h
    by_cases h1 : s = seq
    · by_cases h2 : n = name
      · by_cases h3 : ty = .exception
        · rw [if_pos h1, if_pos h2, if_pos h3] at h
          obtain ⟨_, _, rfl⟩ := into_some h
          subst h1 h2 h3
          exact ⟨_, body, rfl, by simp⟩
        · by_cases h4 : ty = .reply
          · subst h1 h2 h4
            exact ⟨_, body, rfl, fun _ => rfl⟩
          · rw [if_pos h1, if_pos h2, if_neg h3, if_neg h4] at h; simp at h
      · rw [if_pos h1, if_neg h2] at h; simp at h
    · rw [if_neg h1] at h; simp at h

theorem invoke_some {c : Client} {call : Call} {incoming : Option Bytes} {st : SyncStatus}
    (h : (c.invoke call incoming).2.2 = some st) :
    ∃ b body, incoming = some b ∧ readMsgBegin b = some ((methodName call, .reply, c.sequenceNumber + 1#32), body) := by
  simp only [Client.invoke] at h
  cases incoming with
  | none => simp at h
  | some b =>
    simp only [Option.bind_eq_some_iff] at h
    obtain ⟨⟨st', r⟩, h, rfl⟩ := h
    obtain ⟨ty, body, hb, hty⟩ := receive_some h
    obtain rfl := hty rfl
    rw [name_eq] at hb
    exact ⟨b, body, rfl, hb⟩

theorem invoke_sent (c : Client) (call : Call) (incoming : Option Bytes) :
    (c.invoke call incoming).2.1 = request call (c.sequenceNumber + 1#32) := by
  simp only [Client.invoke, request, message, name_eq, writeArgs_eq, writeMsgBegin_eq]

theorem begins_of_read {b body name : Bytes} {ty : MsgType} {n : W32} (h : readMsgBegin b = some ((name, ty, n), body)) :
    BeginsWith name ty n b := by
  obtain h | ⟨x, h⟩ := readMsgBegin_some h
  · exact ⟨body, Or.inl h⟩
  · exact ⟨body, Or.inr ⟨x, h⟩⟩

/-- **C48**: whatever bytes come in, a call returns a status only if they begin with a reply that has the name of the call and the
number that the call was sent with. -/
theorem C48_reply (c c' : Client) (call : Call) (incoming : Option Bytes) (sent : Bytes) (st : SyncStatus)
    (h : c.invoke call incoming = (c', sent, some st)) :
    ∃ number args b, sent = msgHead (methodName call) .call number ++ args ∧ incoming = some b
      ∧ BeginsWith (methodName call) .reply number b := by
  obtain ⟨b, body, hb, hr⟩ := invoke_some (show (c.invoke call incoming).2.2 = some st by rw [h])
  have hs := invoke_sent c call incoming
  rw [h] at hs
  exact ⟨_, _, b, hs, hb, begins_of_read hr⟩

/-- Calls of a client, each with what comes in: the bytes written and the results. -/
def Client.run (c : Client) : List (Call × Option Bytes) → List (Bytes × Option SyncStatus)
  | [] => []
  | (call, incoming) :: cs => (c.invoke call incoming).2 :: (c.invoke call incoming).1.run cs

theorem next_number (c : Client) (call : Call) (incoming : Option Bytes) (i : Nat) :
    (c.invoke call incoming).1.sequenceNumber + BitVec.ofNat 32 (i + 1) = c.sequenceNumber + BitVec.ofNat 32 (i + 1 + 1) := by
  show c.sequenceNumber + 1#32 + BitVec.ofNat 32 (i + 1) = _
  rw [BitVec.add_assoc]
  congr 1
  apply BitVec.eq_of_toNat_eq
  simp only [BitVec.toNat_add, BitVec.toNat_ofNat]
  omega

theorem run_get (cs : List (Call × Option Bytes)) : ∀ (c : Client) (i : Nat) (call : Call) (incoming : Option Bytes),
    cs[i]? = some (call, incoming) → ∃ c' : Client, c'.sequenceNumber + 1#32 = c.sequenceNumber + BitVec.ofNat 32 (i + 1)
      ∧ (c.run cs)[i]? = some (c'.invoke call incoming).2 := by
  induction cs with
  | nil => intro c i call incoming h; simp at h
  | cons x cs ih =>
    intro c i call incoming h
    cases i with
    | zero =>
      rw [List.getElem?_cons_zero] at h
      obtain rfl := Option.some.inj h
      exact ⟨c, rfl, rfl⟩
    | succ i =>
      rw [List.getElem?_cons_succ] at h
      obtain ⟨c', h1, h2⟩ := ih (c.invoke x.1 x.2).1 i call incoming h
      exact ⟨c', by rw [h1, next_number], by rw [Client.run, List.getElem?_cons_succ, h2]⟩

/-- **C48**: whatever comes in and whether or not calls fail, the calls of a client carry the numbers 1, 2, 3, ... -/
theorem C48_numbers (cs : List (Call × Option Bytes)) (i : Nat) (call : Call) (incoming : Option Bytes)
    (h : cs[i]? = some (call, incoming)) :
    ∃ args result, (Client.new.run cs)[i]? = some (msgHead (methodName call) .call (BitVec.ofNat 32 (i + 1)) ++ args, result) := by
  obtain ⟨c', h1, h2⟩ := run_get cs Client.new i call incoming h
  have hs := invoke_sent c' call incoming
  rw [h1, show Client.new.sequenceNumber + BitVec.ofNat 32 (i + 1) = BitVec.ofNat 32 (i + 1) from BitVec.zero_add _] at hs
  refine ⟨(Val.struct (fields (argFields call))).bytes, (c'.invoke call incoming).2.2, ?_⟩
  rw [h2]
  exact congrArg some (Prod.ext hs rfl)

/-- **C48**: bytes that are accepted as the reply to one call are not accepted as the reply to another call of the same client
(among 2^32 calls). -/
theorem C48_not_twice (cs : List (Call × Option Bytes)) (i j : Nat) (hi : i < 2 ^ 32) (hj : j < 2 ^ 32) (call call' : Call)
    (bytes : Bytes) (h : cs[i]? = some (call, some bytes)) (h' : cs[j]? = some (call', some bytes))
    (out out' : Bytes) (st st' : SyncStatus) (hr : (Client.new.run cs)[i]? = some (out, some st))
    (hr' : (Client.new.run cs)[j]? = some (out', some st')) : i = j := by
  have key : ∀ (i : Nat) (call : Call) (out : Bytes) (st : SyncStatus),
      cs[i]? = some (call, some bytes) → (Client.new.run cs)[i]? = some (out, some st) →
      ∃ n ty body, readMsgBegin bytes = some ((n, ty, BitVec.ofNat 32 (i + 1)), body) := by
    intro i call out st h hr
    obtain ⟨c', h1, h2⟩ := run_get cs Client.new i call _ h
    rw [hr] at h2
    have h3 := congrArg Prod.snd (Option.some.inj h2)
    obtain ⟨b, body, hb, hd⟩ := invoke_some h3.symm
    obtain rfl := Option.some.inj hb
    rw [h1, show Client.new.sequenceNumber + BitVec.ofNat 32 (i + 1) = BitVec.ofNat 32 (i + 1) from BitVec.zero_add _] at hd
    exact ⟨_, _, _, hd⟩
  obtain ⟨_, _, _, hb⟩ := key i call out st h hr
  obtain ⟨_, _, _, hb'⟩ := key j call' out' st' h' hr'
  rw [hb] at hb'
  simp only [Option.some.injEq, Prod.mk.injEq] at hb'
  have := congrArg BitVec.toNat hb'.1.2.2
  simp only [BitVec.toNat_ofNat] at this
  omega

/-! ## C53: what is called and returned arrives -/

/-- What a handler's answer is for the client. -/
def outcome : Except AppError SyncStatus → Option SyncStatus
  | .ok s => some s
  | .error _ => none

theorem receive_respond (handler : Handler) (call called : Call) (hname : methodName called = methodName call) (n : W32)
    (h : Sayable (handler called)) (r : Bytes) :
    receive n call.name (respond handler (methodName call) n called ++ r) = some (outcome (handler called), r) := by
  rw [← hname, respond_eq, show call.name = called.name by rw [name_eq, name_eq, hname]]
  cases hh : handler called with
  | ok s =>
    rw [hh] at h
    exact receive_answer called n s (shortText_text h) r
  | error e =>
    rw [hh] at h
    exact receive_exception called n e (shortText_text h) r

/-- **C53**: for every handler, every call that can be sent and every state of the client, the service hands the call with its
arguments to the handler, and what the service answers makes the client return the status that the handler gave, or an error if
the handler failed. Nothing is left of the request or of the answer for the next call. -/
theorem C53_end_to_end (handler : Handler) (c : Client) (call : Call) (hsend : Sendable call) (hsay : Sayable (handler (arrives call))) :
    ∃ reply, process handler (c.invoke call none).2.1 = some (some (arrives call, []), reply)
      ∧ (c.invoke call (some reply)).2.2 = outcome (handler (arrives call))
      ∧ receive (c.sequenceNumber + 1#32) call.name reply = some (outcome (handler (arrives call)), []) := by
  have hp := process_request handler call hsend (c.sequenceNumber + 1#32) []
  have hr := receive_respond handler call (arrives call) (by cases call <;> rfl) (c.sequenceNumber + 1#32) hsay []
  rw [List.append_nil] at hp hr
  refine ⟨_, by rw [invoke_sent]; exact hp, ?_, hr⟩
  simp only [Client.invoke, hr]
  rfl

theorem arrives_complete {call : Call}
    (h : ∀ i, call = .check i → i.address.isSome ∧ i.uuid.isSome ∧ i.partitionInterval.isSome ∧ i.version.isSome) :
    arrives call = call := by
  cases call with
  | check i =>
    obtain ⟨a, u, p, v⟩ := i
    have := h _ rfl
    cases a <;> cases u <;> cases p <;> cases v <;> simp_all [arrives, filled]
  | _ => rfl

/-- **C53**, complete arguments arrive as they are: for all calls but `check`, and `check` as the sender makes it, the handler
gets the call that the client made, and the client returns what the handler gave. Missing: a `check` in which optional fields
are missing, and calls of 2^31 bytes or more. -/
theorem C53_unchanged_partial (handler : Handler) (c : Client) (call : Call) (hsend : Sendable call) (hsay : Sayable (handler call))
    (h : ∀ i, call = .check i → i.address.isSome ∧ i.uuid.isSome ∧ i.partitionInterval.isSome ∧ i.version.isSome) :
    ∃ reply, process handler (c.invoke call none).2.1 = some (some (call, []), reply)
      ∧ (c.invoke call (some reply)).2.2 = outcome (handler call) := by
  have ha := arrives_complete h
  obtain ⟨reply, h1, h2, _⟩ := C53_end_to_end handler c call hsend (by rw [ha]; exact hsay)
  rw [ha] at h1 h2
  exact ⟨reply, h1, h2⟩

/-- A `check` with one field. -/
def lonely : Call := .check ⟨some (TsFile.str "host"), none, none, none⟩

theorem lonely_sendable : Sendable lonely := ⟨by decide +kernel, by decide +kernel⟩

/-- **C53**, the exception: that an optional field is missing does not arrive. The handler gets another call. -/
theorem C53_missing_field_wrong : ∃ call : Call, Sendable call ∧ ∀ (handler : Handler) (c : Client),
    ∃ call' reply, process handler (c.invoke call none).2.1 = some (some (call', []), reply) ∧ call' ≠ call := by
  refine ⟨lonely, lonely_sendable, fun handler c => ?_⟩
  have := process_request handler lonely lonely_sendable (c.sequenceNumber + 1#32) []
  rw [List.append_nil, ← invoke_sent c lonely none] at this
  exact ⟨_, _, this, by decide⟩

/-- **C53**, the exception: a buffer of 2^31 bytes or more does not arrive, whatever is in it: its length is sent as a negative
number. The handler does not get the call. -/
theorem C53_large_wrong (handler : Handler) (c : Client) (buffer : Bytes) (h : 2 ^ 31 ≤ buffer.length) (h' : buffer.length < 2 ^ 32) :
    ∃ reply, process handler (c.invoke (.syncData buffer) none).2.1 = some (none, reply) := by
  rw [invoke_sent, request]
  have hm := readMsgBegin_message (.syncData buffer) .call (c.sequenceNumber + 1#32) (.struct (fields (argFields (.syncData buffer)))) []
  rw [List.append_nil, List.append_nil] at hm
  have hbad : readStrArgs readBytes (Val.struct (fields (argFields (.syncData buffer)))).bytes = none := by
    have hrd : ∀ r, readBytes (textBytes buffer ++ r) = none := fun r => by
      rw [readBytes, textBytes, List.append_assoc, readI32_be]
      simp only [msb_large h h', if_true]
    rw [readStrArgs, readStruct]
    simp only [argFields, fields, Val.bytes, Fields.bytes, List.length_cons, Val.type]
    rw [fieldLoop, readFieldBegin_field _ (by decide)]
    simp only [strField, if_true, into, hrd, Option.map_none]
    rfl
  unfold process
  rw [hm]
  simp only [processWith, hbad]
  exact ⟨_, rfl⟩

/-! ## Cases -/

/-- A handler that accepts one digest. -/
def demoHandler : Handler
  | .checkDataDigest d => if d = TsFile.str "abc" then .ok ⟨1#32, []⟩ else .error (6#32, TsFile.str "mismatch")
  | _ => .ok ⟨1#32, TsFile.str "ok"⟩

example : (Client.new.run [(.startSync, (process demoHandler (Client.new.invoke .startSync none).2.1).map Prod.snd),
      (.checkDataDigest (TsFile.str "abd"), some []),
      (.endSync, (process demoHandler (Client.new.invoke .endSync none).2.1).map Prod.snd)]).map Prod.snd
    = [some ⟨1#32, TsFile.str "ok"⟩, none, none] := by decide +kernel

example : ∃ number args b, ((⟨4#32⟩ : Client).invoke .endSync (some (respond demoHandler nEndSync 5#32 .endSync))).2.1
      = msgHead (methodName .endSync) .call number ++ args
    ∧ some (respond demoHandler nEndSync 5#32 .endSync) = some b ∧ BeginsWith (methodName .endSync) .reply number b :=
  C48_reply ⟨4#32⟩ _ .endSync (some (respond demoHandler nEndSync 5#32 .endSync)) _ ⟨1#32, TsFile.str "ok"⟩
    (Prod.ext rfl (Prod.ext rfl (by decide +kernel)))

example : ∃ args result, (Client.new.run [(.startSync, none), (.init (TsFile.str "sg"), none), (.endSync, none)])[2]?
    = some (msgHead (methodName .endSync) .call 3#32 ++ args, result) :=
  C48_numbers [(.startSync, none), (.init (TsFile.str "sg"), none), (.endSync, none)] 2 .endSync none rfl

/-- A reply with the number of an earlier call is refused. -/
example : ((⟨4#32⟩ : Client).invoke .endSync (some (respond demoHandler nEndSync 4#32 .endSync))).2.2 = none := by decide +kernel

/-- A reply with the right number is accepted. -/
example : ((⟨4#32⟩ : Client).invoke .endSync (some (respond demoHandler nEndSync 5#32 .endSync))).2.2
    = some ⟨1#32, TsFile.str "ok"⟩ := by decide +kernel

/-- A status with an unknown field is understood. -/
example : readStatus [12, 0, 9, 10, 0, 3, 0, 0, 0, 0, 0, 0, 0, 5, 0, 11, 0, 2, 0, 0, 0, 1, 7, 8, 0, 1, 0, 0, 0, 3, 0]
    = some (⟨3, [7]⟩, []) := by decide +kernel

/-- The bytes of a call. -/
example : (Client.new.invoke (.init (TsFile.str "sg")) none).2.1
    = [0, 0, 0, 4, 105, 110, 105, 116, 1, 0, 0, 0, 1, 11, 0, 1, 0, 0, 0, 2, 115, 103, 0] := by decide +kernel

/-- A reply in the other form, with the version. -/
example : ((⟨4#32⟩ : Client).invoke .endSync (some (strictHead 0 nEndSync .reply 5#32 ++ writeResult ⟨1#32, []⟩))).2.2
    = some ⟨1#32, []⟩ := by decide +kernel

example : ∃ call : Call, Sendable call ∧ Sayable (demoHandler call) ∧ call = .syncData [255, 0] :=
  ⟨.syncData [255, 0], ⟨by decide +kernel, by decide +kernel⟩, show ShortText (TsFile.str "ok") from ⟨by decide +kernel, by decide +kernel⟩, rfl⟩

example : ∃ reply, process demoHandler (Client.new.invoke (.syncData [255, 0]) none).2.1 = some (some (.syncData [255, 0], []), reply)
    ∧ (Client.new.invoke (.syncData [255, 0]) (some reply)).2.2 = some ⟨1#32, TsFile.str "ok"⟩ :=
  C53_unchanged_partial demoHandler Client.new (.syncData [255, 0]) ⟨by decide +kernel, by decide +kernel⟩
    (show ShortText (TsFile.str "ok") from ⟨by decide +kernel, by decide +kernel⟩) (fun _ h => by cases h)

/-- A buffer of 2 GiB. -/
example : ∃ reply, process demoHandler (Client.new.invoke (.syncData (List.replicate (2 ^ 31) 0)) none).2.1 = some (none, reply) :=
  C53_large_wrong demoHandler Client.new _ (Nat.le_of_eq List.length_replicate.symm) (by rw [List.length_replicate]; decide)

end TsFile.Thrift
