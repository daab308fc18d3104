import Verif.Props.Interface
/-! # Property C90: messages that are no calls of the interface -/

namespace TsFile.Thrift
open Spec

theorem refuse_eq (name : Bytes) (number kind : W32) (text : Bytes) : refuse name number (kind, text) = refusal name number kind text := by
  rw [refuse, refusal, message, writeAppError_eq, writeMsgBegin_eq]

/-- **C90.** A method that the service does not have: the handler gets nothing, and the answer is an exception of the kind "unknown
method" with the name and the number of the message, whatever its type and its arguments. -/
theorem C90_unknown (handler : Handler) (name : Bytes) (type : MsgType) (number : W32) (rest : Bytes) (ht : Utf8 name)
    (hlen : name.length < 2 ^ 27) (h : ∀ call, methodName call ≠ name) :
    process handler (msgHead name type number ++ rest) = some (none, refusal name number 1 (str "unknown method " ++ name)) := by
  unfold process
  rw [readMsgBegin_head _ _ _ _ ((utf8_iff _).mpr ht) hlen]
  have h1 := h (.check emptyInfo)
  have h2 := h .startSync
  have h3 := h (.init [])
  have h4 := h (.syncDeletedFileName [])
  have h5 := h (.initSyncData [])
  have h6 := h (.syncData [])
  have h7 := h (.checkDataDigest [])
  have h8 := h .endSync
  rw [← name_eq] at h1 h2 h3 h4 h5 h6 h7 h8
  simp only [Call.name] at h1 h2 h3 h4 h5 h6 h7 h8
  simp only [if_neg h1.symm, if_neg h2.symm, if_neg h3.symm, if_neg h4.symm, if_neg h5.symm, if_neg h6.symm, if_neg h7.symm, if_neg h8.symm,
    refuse_eq]
  rfl

/-- **C90.** The name of the message is not a text: there is no answer (and the connection ends). -/
theorem C90_no_text (handler : Handler) (name : Bytes) (type : MsgType) (number : W32) (rest : Bytes) (ht : ¬ Utf8 name)
    (hlen : name.length < 2 ^ 27) : process handler (msgHead name type number ++ rest) = none := by
  have : readMsgBegin (msgHead name type number ++ rest) = none := by
    rw [readMsgBegin, msgHead, textBytes]
    simp only [List.append_assoc, List.cons_append]
    rw [readN_append 4 _ _ (length_be32 _)]
    simp only [if_neg (be32_first hlen)]
    rw [beVal_eq, be32, beNat_beBytes, u32_toNat _ (show name.length < 2 ^ 32 by omega),
      Nat.mod_eq_of_lt (show name.length < 256 ^ 4 by omega), readN_append _ _ _ rfl]
    rw [← utf8_iff] at ht
    simp only [ht]
    rfl
  unfold process
  rw [this]

theorem readStrArgs_missing (rd : Rd Bytes) (l : List (W16 × Val)) (hl : ∀ f ∈ l, f.2.Fits 64) (h : ∀ f ∈ l, f.1 ≠ 1) (r : Bytes) :
    readStrArgs rd ((Val.struct (fields l)).bytes ++ r) = none := by
  have hstep := readStruct_fields (strField rd) (fun (st : Option Bytes) _ => st) l
    (fun f hf st r => Or.inr ⟨by rw [strField, if_neg (h f hf)], hl f hf, rfl⟩) none r
  rw [readStrArgs, hstep]
  have hfold : ∀ l : List (W16 × Val), l.foldl (fun (st : Option Bytes) _ => st) none = none := by
    intro l
    induction l with
    | nil => rfl
    | cons f l ih => exact ih
  rw [hfold]

/-- **C90.** A call without its argument (for `check`: without any): the handler gets nothing, and the answer is an exception with
the name and the number of the call. -/
theorem C90_missing (handler : Handler) (call : Call) (hcall : argFields call ≠ []) (args : List (W16 × Val)) (hfit : Fitting args)
    (hno : ∀ f ∈ args, f.1 ∉ (argFields call).map Prod.fst) (hcheck : ∀ i, call = .check i → args = []) (type : MsgType) (number : W32)
    (rest : Bytes) :
    ∃ text, process handler (message (methodName call) type number (.struct (fields args)) ++ rest)
      = some (none, refusal (methodName call) number 0 text) := by
  refine ⟨[], ?_⟩
  have hstr : ∀ rd : Rd Bytes, (argFields call).map Prod.fst = [1] → readStrArgs rd ((Val.struct (fields args)).bytes ++ rest) = none :=
    fun rd h1 => readStrArgs_missing rd args hfit (fun f hf => by have := hno f hf; rw [h1] at this; simpa using this) rest
  unfold process
  rw [readMsgBegin_message]
  cases call with
  | startSync => exact absurd rfl hcall
  | endSync => exact absurd rfl hcall
  | check i =>
    rw [hcheck i rfl]
    have h0 : readCheckArgs ((Val.struct (fields [])).bytes ++ rest) = none := by
      rw [readCheckArgs, readStruct_fields checkField (fun s _ => s) [] (by simp) none rest]
      rfl
    rw [← refuse_eq]
    simp only [processWith, h0]
    rfl
  | init v => rw [← refuse_eq]; simp only [processWith, hstr readStr rfl]; rfl
  | syncDeletedFileName v => rw [← refuse_eq]; simp only [processWith, hstr readStr rfl]; rfl
  | initSyncData v => rw [← refuse_eq]; simp only [processWith, hstr readStr rfl]; rfl
  | syncData v => rw [← refuse_eq]; simp only [processWith, hstr readBytes rfl]; rfl
  | checkDataDigest v => rw [← refuse_eq]; simp only [processWith, hstr readStr rfl]; rfl

/-- **C90.** The client that gets a refusal of its call returns an error. -/
theorem C90_told (c : Client) (call : Call) (kind : W32) (text rest : Bytes) (ht : Text text) :
    receive (c.sequenceNumber + 1#32) call.name (refusal (methodName call) (c.sequenceNumber + 1#32) kind text ++ rest) = some (none, rest)
    ∧ (c.invoke call (some (refusal (methodName call) (c.sequenceNumber + 1#32) kind text ++ rest))).2.2 = none := by
  have h := (C60_understood call (c.sequenceNumber + 1#32) rest).2 (kind, text) ht
  have h' : receive (c.sequenceNumber + 1#32) call.name (refusal (methodName call) (c.sequenceNumber + 1#32) kind text ++ rest) = some (none, rest) := h
  refine ⟨h', ?_⟩
  simp only [Client.invoke, h']
  rfl

theorem processWith_left {α : Type} {handler : Handler} {name : Bytes} {number : W32} {rd : Rd α} {mk : α → Call} {b r out : Bytes}
    {call : Call} (h : processWith handler name number rd mk b = (some (call, r), out)) : ∃ v, rd b = some (v, r) := by
  rw [processWith] at h
  cases hr : rd b with
  | none => rw [hr] at h; simp at h
  | some p =>
    rw [hr] at h
    obtain ⟨v, r'⟩ := p
    simp only [Prod.mk.injEq, Option.some.injEq] at h
    exact ⟨v, by rw [h.1.2]⟩

theorem strArgs_left {rd : Rd Bytes} {b r v : Bytes} (h : readStrArgs rd b = some (v, r)) : (readStruct (strField rd) none b).map Prod.snd = some r := by
  rw [readStrArgs] at h
  split at h
  · next hs =>
    simp only [Option.some.injEq, Prod.mk.injEq] at h
    rw [hs, ← h.2]
    rfl
  · simp at h

/-- Both parts of the model agree on what is left behind a call that the handler gets. -/
theorem unread_process (handler : Handler) {b r out : Bytes} {call : Call} (h : process handler b = some (some (call, r), out)) :
    unread b = some r := by
  unfold process at h
  unfold unread
  cases hb : readMsgBegin b with
  | none => rw [hb] at h; simp at h
  | some m =>
    rw [hb] at h
    obtain ⟨⟨name, ty, number⟩, q⟩ := m
    simp only [Option.some.injEq] at h ⊢
    split at h
    · next hn =>
      rw [if_pos hn]
      obtain ⟨v, hv⟩ := processWith_left h
      rw [readCheckArgs] at hv
      split at hv
      · next hs =>
        simp only [Option.some.injEq, Prod.mk.injEq] at hv
        rw [hs, ← hv.2]
        rfl
      · simp at hv
    next hn =>
    rw [if_neg hn]
    split at h
    · next hn => rw [if_pos hn]; obtain ⟨v, hv⟩ := processWith_left h; rw [hv]; rfl
    next hn =>
    rw [if_neg hn]
    split at h
    · next hn => rw [if_pos hn]; obtain ⟨v, hv⟩ := processWith_left h; exact strArgs_left hv
    next hn =>
    rw [if_neg hn]
    split at h
    · next hn => rw [if_pos hn]; obtain ⟨v, hv⟩ := processWith_left h; exact strArgs_left hv
    next hn =>
    rw [if_neg hn]
    split at h
    · next hn => rw [if_pos hn]; obtain ⟨v, hv⟩ := processWith_left h; exact strArgs_left hv
    next hn =>
    rw [if_neg hn]
    split at h
    · next hn => rw [if_pos hn]; obtain ⟨v, hv⟩ := processWith_left h; exact strArgs_left hv
    next hn =>
    rw [if_neg hn]
    split at h
    · next hn => rw [if_pos hn]; obtain ⟨v, hv⟩ := processWith_left h; exact strArgs_left hv
    next hn =>
    rw [if_neg hn]
    split at h
    · next hn => rw [if_pos hn]; obtain ⟨v, hv⟩ := processWith_left h; rw [hv]; rfl
    · simp at h

/-- **C90.** Behind a call without its argument the connection can be used: all of the call has been read. Missing: messages with an
unknown name (`C90_left_wrong`). -/
theorem C90_next_partial (call : Call) (hcall : argFields call ≠ []) (args : List (W16 × Val)) (hfit : Fitting args)
    (hno : ∀ f ∈ args, f.1 ∉ (argFields call).map Prod.fst) (hcheck : ∀ i, call = .check i → args = []) (type : MsgType) (number : W32)
    (rest : Bytes) : unread (message (methodName call) type number (.struct (fields args)) ++ rest) = some rest := by
  have hstr : ∀ rd : Rd Bytes, (argFields call).map Prod.fst = [1] →
      (readStruct (strField rd) none ((Val.struct (fields args)).bytes ++ rest)).map Prod.snd = some rest := fun rd h1 => by
    rw [readStruct_fields (strField rd) (fun (st : Option Bytes) _ => st) args
      (fun f hf st r => Or.inr ⟨by rw [strField, if_neg (by have := hno f hf; rw [h1] at this; simpa using this)], hfit f hf, rfl⟩) none rest]
    rfl
  unfold unread
  rw [readMsgBegin_message]
  cases call with
  | startSync => exact absurd rfl hcall
  | endSync => exact absurd rfl hcall
  | check i =>
    rw [hcheck i rfl]
    exact congrArg (Option.map Prod.snd) (readStruct_fields checkField (fun s _ => s) [] (by simp) none rest)
  | init v => exact hstr readStr rfl
  | syncDeletedFileName v => exact hstr readStr rfl
  | initSyncData v => exact hstr readStr rfl
  | syncData v => exact hstr readBytes rfl
  | checkDataDigest v => exact hstr readStr rfl

theorem readMsgBegin_empty {m : Bytes} {q : (Bytes × MsgType × W32) × Bytes} (h : readMsgBegin (0 :: 0 :: 0 :: 0 :: m) = some q) : q.1.1 = [] := by
  have h4 : readN 4 (0 :: 0 :: 0 :: 0 :: m) = some ([0, 0, 0, 0], m) := readN_append 4 [0, 0, 0, 0] m rfl
  have h0 : readN (beVal [0, 0, 0, 0]) m = some ([], m) := by
    have : beVal [0, 0, 0, 0] = 0 := by decide
    rw [this]
    exact readN_append 0 [] m rfl
  rw [readMsgBegin, h4] at h
  simp only [show ¬ (8 : UInt8) ≤ List.headD [0, 0, 0, 0] 0 from by decide, if_false, h0, show utf8 [] = true from by decide, if_true] at h
  split at h
  · simp at h
  · split at h
    · simp at h
    · obtain ⟨v, _, hv⟩ := into_some h
      rw [← hv]

/-- **C90**, the exception: the arguments of a message with an unknown name stay on the connection. Even if there are none, the next
request, whatever it is, does not reach the handler. -/
theorem C90_left_wrong (handler : Handler) (name : Bytes) (type : MsgType) (number : W32) (ht : Utf8 name)
    (hlen : name.length < 2 ^ 27) (h : ∀ call, methodName call ≠ name) (call : Call) (next : W32) (rest : Bytes) :
    ∃ left, unread (message name type number (.struct (fields [])) ++ (request call next ++ rest)) = some left
      ∧ ∀ reached out, process handler left ≠ some (some reached, out) := by
  refine ⟨0 :: (request call next ++ rest), ?_, ?_⟩
  · have h1 := h (.check emptyInfo)
    have h2 := h .startSync
    have h3 := h (.init [])
    have h4 := h (.syncDeletedFileName [])
    have h5 := h (.initSyncData [])
    have h6 := h (.syncData [])
    have h7 := h (.checkDataDigest [])
    have h8 := h .endSync
    rw [← name_eq] at h1 h2 h3 h4 h5 h6 h7 h8
    simp only [Call.name] at h1 h2 h3 h4 h5 h6 h7 h8
    unfold unread
    rw [message, List.append_assoc, readMsgBegin_head _ _ _ _ ((utf8_iff _).mpr ht) hlen]
    simp only [if_neg h1.symm, if_neg h2.symm, if_neg h3.symm, if_neg h4.symm, if_neg h5.symm, if_neg h6.symm, if_neg h7.symm, if_neg h8.symm]
    rfl
  · intro reached out hp
    -- the four bytes of the length of the name are read one byte too early: an empty name
    have hn : ∃ m, request call next ++ rest = 0 :: 0 :: 0 :: m := by
      have hs : ∀ name ∈ [str "check", str "startSync", str "init", str "syncDeletedFileName", str "initSyncData", str "syncData",
          str "checkDataDigest", str "endSync"], ∃ m, be32 (u32 name.length) = 0 :: 0 :: 0 :: m := by
        intro name h
        simp only [List.mem_cons, List.not_mem_nil, or_false] at h
        obtain rfl | rfl | rfl | rfl | rfl | rfl | rfl | rfl := h <;> exact ⟨_, rfl⟩
      obtain ⟨m, h⟩ := hs (methodName call) (by cases call <;> simp [methodName])
      refine ⟨m ++ (methodName call ++ (messageNumber .call :: be32 next) ++ (Val.struct (fields (argFields call))).bytes ++ rest), ?_⟩
      simp only [request, message, msgHead, textBytes, h]
      simp
    obtain ⟨m, hm⟩ := hn
    rw [hm] at hp
    unfold process at hp
    cases hr : readMsgBegin (0 :: 0 :: 0 :: 0 :: m) with
    | none => rw [hr] at hp; simp at hp
    | some q =>
      have hq := readMsgBegin_empty hr
      rw [hr] at hp
      obtain ⟨⟨n, ty, sn⟩, r⟩ := q
      simp only at hq
      subst hq
      simp only [show ([] : Bytes) ≠ nCheck from by decide, show ([] : Bytes) ≠ nStartSync from by decide, show ([] : Bytes) ≠ nInit from by decide,
        show ([] : Bytes) ≠ nSyncDeletedFileName from by decide, show ([] : Bytes) ≠ nInitSyncData from by decide,
        show ([] : Bytes) ≠ nSyncData from by decide, show ([] : Bytes) ≠ nCheckDataDigest from by decide,
        show ([] : Bytes) ≠ nEndSync from by decide, if_false, Option.some.injEq, Prod.mk.injEq] at hp
      exact absurd hp.1 (by simp)

/-- A handler that accepts everything. -/
def agree : Handler := fun _ => .ok ⟨1#32, []⟩

example : process agree (msgHead (str "ping") .call 7 ++ [0]) = some (none, refusal (str "ping") 7 1 (str "unknown method ping")) :=
  C90_unknown agree (str "ping") .call 7 [0] (by decide +kernel) (by decide +kernel) (by intro call; cases call <;> (simp only [methodName]; decide +kernel))

example : process agree (msgHead [0xff] .call 7 ++ [0]) = none :=
  C90_no_text agree [0xff] .call 7 [0] (by decide +kernel) (by decide +kernel)

-- `init` with a number in field 2, and without the text in field 1
example : ∃ text, process agree (message (str "init") .call 3 (.struct (fields [(2, .i32 5)])) ++ [9]) = some (none, refusal (str "init") 3 0 text) :=
  C90_missing agree (.init []) (by simp [argFields]) [(2, .i32 5)] (by intro f hf; rw [List.mem_singleton] at hf; subst hf; simp [Val.Fits])
    (by intro f hf; rw [List.mem_singleton] at hf; subst hf; simp [argFields]) (by intro i h; cases h) .call 3 [9]

-- the next call, `startSync`, is not understood
example : ∃ left, unread (message (str "ping") .call 7 (.struct (fields [])) ++ (request .startSync 8 ++ [])) = some left
    ∧ ∀ reached out, process agree left ≠ some (some reached, out) :=
  C90_left_wrong agree (str "ping") .call 7 (by decide +kernel) (by decide +kernel) (by intro call; cases call <;> (simp only [methodName]; decide +kernel))
    .startSync 8 []

end TsFile.Thrift
