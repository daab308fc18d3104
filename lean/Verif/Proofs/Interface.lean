import Verif.Proofs.Wire
/-! # Reading structures with unknown fields -/

namespace TsFile.Thrift
open Spec

theorem name_eq (call : Call) : call.name = methodName call := by
  cases call <;> rfl

theorem name_ok (call : Call) : utf8 (methodName call) = true ∧ (methodName call).length < 2 ^ 27 := by
  have h : ∀ n ∈ [str "check", str "startSync", str "init", str "syncDeletedFileName", str "initSyncData", str "syncData",
      str "checkDataDigest", str "endSync"], utf8 n = true ∧ n.length < 2 ^ 27 := by decide +kernel
  apply h
  cases call <;> simp [methodName]

theorem writeMsgBegin_eq (name : Bytes) (ty : MsgType) (seq : W32) : writeMsgBegin name ty seq = msgHead name ty seq := by
  rw [writeMsgBegin, msgHead, msgCode_eq]; rfl

theorem writeArgs_eq (call : Call) : writeArgs call = (Val.struct (fields (argFields call))).bytes := by
  cases call with
  | check i =>
    obtain ⟨a, u, p, v⟩ := i
    cases a <;> cases u <;> cases p <;> cases v <;>
      simp [writeArgs, writeConfirm, writeOpt, writeField, writeStop, code_eq, typeNumber, argFields, confirmFields, Spec.optional, fields,
        Val.bytes, Fields.bytes, Val.type, be16, writeStr, textBytes]
  | startSync => rfl
  | endSync => rfl
  | _ => simp [writeArgs, writeStrArgs, writeField, writeStop, code_eq, typeNumber, argFields, fields, Val.bytes, Fields.bytes,
      Val.type, be16, writeStr, textBytes]

theorem writeResult_eq (s : SyncStatus) : writeResult s = (Val.struct (fields [(0, .struct (fields (statusFields s)))])).bytes := by
  simp [writeResult, writeStatus, writeField, writeStop, code_eq, typeNumber, statusFields, fields, Val.bytes, Fields.bytes,
      Val.type, be16, writeStr, textBytes]

theorem writeAppError_eq (e : AppError) :
    writeAppError e = (Val.struct (fields [(1, .str e.2), (2, .i32 e.1)])).bytes := by
  simp [writeAppError, writeField, writeStop, code_eq, typeNumber, fields, Val.bytes, Fields.bytes,
      Val.type, be16, writeStr, textBytes]

/-! ## The readers -/

/-- A field of a status. -/
def statusStep (s : Option W32 × Option Bytes) (f : W16 × Val) : Option W32 × Option Bytes :=
  if f.1 = 1 then match f.2 with | .i32 c => (some c, s.2) | _ => s
  else if f.1 = 2 then match f.2 with | .str t => (s.1, some t) | _ => s
  else s

/-- The fields of a status. -/
def StatusFields (l : List (W16 × Val)) : Prop :=
  ∀ f ∈ l, (f.1 = 1 → ∃ c, f.2 = .i32 c) ∧ (f.1 = 2 → ∃ t, f.2 = .str t ∧ Text t) ∧ (f.1 ≠ 1 → f.1 ≠ 2 → f.2.Fits 64)

theorem readStruct_status (l : List (W16 × Val)) (hl : StatusFields l) (s : Option W32 × Option Bytes) (r : Bytes) :
    readStruct statusField s ((Val.struct (fields l)).bytes ++ r) = some (l.foldl statusStep s, r) := by
  apply readStruct_fields
  rintro ⟨id, v⟩ hf s r
  obtain ⟨h1, h2, h3⟩ := hl _ hf
  dsimp only at h1 h2 h3 ⊢
  by_cases e1 : id = 1
  · obtain ⟨c, rfl⟩ := h1 e1
    subst e1
    exact Or.inl ⟨_, rfl, into_eq (readI32_be c r)⟩
  · by_cases e2 : id = 2
    · obtain ⟨t, rfl, ht⟩ := h2 e2
      subst e2
      exact Or.inl ⟨_, rfl, into_eq (readStr_text t r ht)⟩
    · exact Or.inr ⟨by rw [statusField, if_neg e1, if_neg e2], h3 e1 e2, by rw [statusStep, if_neg e1, if_neg e2]⟩

theorem foldl_status_code (l : List (W16 × Val)) : ∀ s s' : Option W32 × Option Bytes, s.1 = s'.1 →
    (l.foldl statusStep s).1 = ((l.filter (fun f => f.1 = 1)).foldl statusStep s').1 := by
  induction l with
  | nil => intro s s' h; exact h
  | cons f l ih =>
    intro s s' h
    rw [List.foldl_cons]
    by_cases h1 : f.1 = 1
    · simp only [List.filter_cons, h1, decide_true, if_true, List.foldl_cons]
      apply ih
      simp only [statusStep, if_pos h1]
      cases f.2 <;> simp [h]
    · simp only [List.filter_cons, h1, decide_false, Bool.false_eq_true, if_false]
      apply ih
      rw [← h]
      simp only [statusStep, if_neg h1]
      split
      · cases f.2 <;> rfl
      · rfl

theorem foldl_status_text (l : List (W16 × Val)) : ∀ s s' : Option W32 × Option Bytes, s.2 = s'.2 →
    (l.foldl statusStep s).2 = ((l.filter (fun f => f.1 = 2)).foldl statusStep s').2 := by
  induction l with
  | nil => intro s s' h; exact h
  | cons f l ih =>
    intro s s' h
    rw [List.foldl_cons]
    by_cases h1 : f.1 = 2
    · have h0 : f.1 ≠ 1 := by rw [h1]; decide
      simp only [List.filter_cons, h1, decide_true, if_true, List.foldl_cons]
      apply ih
      simp only [statusStep, if_neg h0, if_pos h1]
      cases f.2 <;> simp [h]
    · simp only [List.filter_cons, h1, decide_false, Bool.false_eq_true, if_false]
      apply ih
      rw [← h]
      simp only [statusStep, if_neg h1]
      split
      · cases f.2 <;> rfl
      · rfl

theorem readStatus_fields (l : List (W16 × Val)) (hl : StatusFields l) (code : W32) (text : Bytes)
    (h1 : l.filter (fun f => f.1 = 1) = [(1, .i32 code)]) (h2 : l.filter (fun f => f.1 = 2) = [(2, .str text)]) (r : Bytes) :
    readStatus ((Val.struct (fields l)).bytes ++ r) = some (⟨code, text⟩, r) := by
  have e1 := foldl_status_code l (none, none) (none, none) rfl
  have e2 := foldl_status_text l (none, none) (none, none) rfl
  rw [h1] at e1
  rw [h2] at e2
  rw [readStatus, readStruct_status l hl]
  rcases hp : l.foldl statusStep (none, none) with ⟨a, b⟩
  rw [hp] at e1 e2
  obtain rfl : a = some code := e1
  obtain rfl : b = some text := e2
  rfl

theorem readStatus_incomplete (l : List (W16 × Val)) (hl : StatusFields l)
    (h : l.filter (fun f => f.1 = 1) = [] ∨ l.filter (fun f => f.1 = 2) = []) (r : Bytes) :
    readStatus ((Val.struct (fields l)).bytes ++ r) = none := by
  have e1 := foldl_status_code l (none, none) (none, none) rfl
  have e2 := foldl_status_text l (none, none) (none, none) rfl
  rw [readStatus, readStruct_status l hl]
  rcases hp : l.foldl statusStep (none, none) with ⟨a, b⟩
  rw [hp] at e1 e2
  obtain h | h := h
  · rw [h] at e1
    obtain rfl : a = none := e1
    rfl
  · rw [h] at e2
    obtain rfl : b = none := e2
    cases a <;> rfl

theorem readResult_fields (l fs : List (W16 × Val)) (s : SyncStatus) (hs : ∀ r, readStatus ((Val.struct (fields fs)).bytes ++ r) = some (s, r))
    (hl : ∀ f ∈ l, f.1 ≠ 0 → f.2.Fits 64) (h : l.filter (fun f => f.1 = 0) = [(0, .struct (fields fs))]) (r : Bytes) :
    readResult ((Val.struct (fields l)).bytes ++ r) = some (some s, r) := by
  have hstep := readStruct_fields resultField (fun (st : Option SyncStatus) f => if f.1 = 0 then some s else st) l (fun f hf st r => by
    by_cases h0 : f.1 = 0
    · left
      have hm : f ∈ l.filter (fun f => f.1 = 0) := List.mem_filter.mpr ⟨hf, by simpa using h0⟩
      rw [h, List.mem_singleton] at hm
      subst hm
      exact ⟨_, rfl, into_eq (hs r)⟩
    · exact Or.inr ⟨by rw [resultField, if_neg h0], hl f hf h0, by rw [if_neg h0]⟩) none r
  rw [readResult, hstep]
  congr 2
  have hfold : ∀ (l : List (W16 × Val)) (st : Option SyncStatus),
      l.foldl (fun (st : Option SyncStatus) f => if f.1 = 0 then some s else st) st
        = (l.filter (fun f => f.1 = 0)).foldl (fun (st : Option SyncStatus) f => if f.1 = 0 then some s else st) st := by
    intro l
    induction l with
    | nil => intro st; rfl
    | cons f l ih =>
      intro st
      by_cases h0 : f.1 = 0
      · simp only [List.filter_cons, h0, decide_true, if_true, List.foldl_cons]
        exact ih _
      · simp only [List.filter_cons, h0, decide_false, Bool.false_eq_true, if_false, List.foldl_cons]
        exact ih _
  rw [hfold, h]
  rfl

theorem readAppError_eq (e : AppError) (h : Text e.2) (r : Bytes) : readAppError (writeAppError e ++ r) = some (e, r) := by
  rw [writeAppError_eq, readAppError]
  have := readStruct_fields appErrorField
    (fun s f => if f.1 = 1 then (s.1, e.2) else (e.1, s.2)) [(1, .str e.2), (2, .i32 e.1)] (fun f hf s r => by
      simp only [List.mem_cons, List.not_mem_nil, or_false] at hf
      obtain rfl | rfl := hf
      · exact Or.inl ⟨_, rfl, into_eq (readStr_text _ r h)⟩
      · exact Or.inl ⟨_, rfl, into_eq (readI32_be _ r)⟩) (0, []) r
  rw [this]
  rfl

theorem readStrArgs_fields (rd : Rd Bytes) (l : List (W16 × Val)) (v : Bytes) (hrd : ∀ r, rd (textBytes v ++ r) = some (v, r))
    (hl : ∀ f ∈ l, f.1 ≠ 1 → f.2.Fits 64) (h : l.filter (fun f => f.1 = 1) = [(1, .str v)]) (r : Bytes) :
    readStrArgs rd ((Val.struct (fields l)).bytes ++ r) = some (v, r) := by
  have hstep := readStruct_fields (strField rd) (fun (st : Option Bytes) f => if f.1 = 1 then some v else st) l (fun f hf st r => by
    by_cases h0 : f.1 = 1
    · left
      have hm : f ∈ l.filter (fun f => f.1 = 1) := List.mem_filter.mpr ⟨hf, by simpa using h0⟩
      rw [h, List.mem_singleton] at hm
      subst hm
      exact ⟨_, rfl, into_eq (hrd r)⟩
    · exact Or.inr ⟨by rw [strField, if_neg h0], hl f hf h0, by rw [if_neg h0]⟩) none r
  rw [readStrArgs, hstep]
  have hfold : ∀ (l : List (W16 × Val)) (st : Option Bytes),
      l.foldl (fun (st : Option Bytes) f => if f.1 = 1 then some v else st) st
        = (l.filter (fun f => f.1 = 1)).foldl (fun (st : Option Bytes) f => if f.1 = 1 then some v else st) st := by
    intro l
    induction l with
    | nil => intro st; rfl
    | cons f l ih =>
      intro st
      by_cases h0 : f.1 = 1
      · simp only [List.filter_cons, h0, decide_true, if_true, List.foldl_cons]
        exact ih _
      · simp only [List.filter_cons, h0, decide_false, Bool.false_eq_true, if_false, List.foldl_cons]
        exact ih _
  rw [hfold, h]
  rfl

theorem readNoArgs_fields (l : List (W16 × Val)) (hl : Fitting l) (r : Bytes) :
    readNoArgs ((Val.struct (fields l)).bytes ++ r) = some ((), r) := by
  rw [readNoArgs, readStruct_fields (fun _ (_ : Unit) => none) (fun s _ => s) l (fun f hf _ _ => Or.inr ⟨rfl, hl f hf, rfl⟩) () r]

/-- A field of a `ConfirmInfo`. -/
def confirmStep (s : ConfirmInfo) (f : W16 × Val) : ConfirmInfo :=
  if f.1 = 1 then match f.2 with | .str v => { s with address := some v } | _ => s
  else if f.1 = 2 then match f.2 with | .str v => { s with uuid := some v } | _ => s
  else if f.1 = 3 then match f.2 with | .i64 v => { s with partitionInterval := some v } | _ => s
  else if f.1 = 4 then match f.2 with | .str v => { s with version := some v } | _ => s
  else s

/-- A `ConfirmInfo` before its fields are read. -/
def emptyInfo : ConfirmInfo := { address := some [], uuid := some [], partitionInterval := some 0#64, version := some [] }

/-- A `ConfirmInfo` as it arrives: a missing field arrives as an empty one. -/
def filled (i : ConfirmInfo) : ConfirmInfo :=
  { address := some (i.address.getD []), uuid := some (i.uuid.getD []),
    partitionInterval := some (i.partitionInterval.getD 0#64), version := some (i.version.getD []) }

/-- Is a field of a `ConfirmInfo`. -/
def confirmIds (f : W16 × Val) : Prop := f.1 = 1 ∨ f.1 = 2 ∨ f.1 = 3 ∨ f.1 = 4

instance (f : W16 × Val) : Decidable (confirmIds f) := by unfold confirmIds; infer_instance

theorem foldl_confirm_filter (l : List (W16 × Val)) (s : ConfirmInfo) :
    l.foldl confirmStep s = (l.filter (fun f => decide (confirmIds f))).foldl confirmStep s := by
  induction l generalizing s with
  | nil => rfl
  | cons f l ih =>
    by_cases h : confirmIds f
    · rw [List.filter_cons, if_pos (by simpa using h), List.foldl_cons, List.foldl_cons]
      exact ih _
    · rw [List.filter_cons, if_neg (by simpa using h), List.foldl_cons, ← ih]
      simp only [confirmIds, not_or] at h
      simp only [confirmStep, if_neg h.1, if_neg h.2.1, if_neg h.2.2.1, if_neg h.2.2.2]

theorem confirm_mem {i : ConfirmInfo} {f : W16 × Val} (h : f ∈ confirmFields i) :
    (f.1 = 1 ∧ ∃ v, i.address = some v ∧ f.2 = .str v) ∨ (f.1 = 2 ∧ ∃ v, i.uuid = some v ∧ f.2 = .str v)
    ∨ (f.1 = 3 ∧ ∃ v, i.partitionInterval = some v ∧ f.2 = .i64 v) ∨ (f.1 = 4 ∧ ∃ v, i.version = some v ∧ f.2 = .str v) := by
  obtain ⟨a, u, p, v⟩ := i
  simp only [confirmFields, List.mem_append] at h
  obtain ((h | h) | h) | h := h
  · cases a with
    | none => simp [Spec.optional] at h
    | some x => simp only [Option.map_some, Spec.optional, List.mem_singleton] at h; subst h; exact Or.inl ⟨rfl, x, rfl, rfl⟩
  · cases u with
    | none => simp [Spec.optional] at h
    | some x => simp only [Option.map_some, Spec.optional, List.mem_singleton] at h; subst h; exact Or.inr (Or.inl ⟨rfl, x, rfl, rfl⟩)
  · cases p with
    | none => simp [Spec.optional] at h
    | some x => simp only [Option.map_some, Spec.optional, List.mem_singleton] at h; subst h; exact Or.inr (Or.inr (Or.inl ⟨rfl, x, rfl, rfl⟩))
  · cases v with
    | none => simp [Spec.optional] at h
    | some x => simp only [Option.map_some, Spec.optional, List.mem_singleton] at h; subst h; exact Or.inr (Or.inr (Or.inr ⟨rfl, x, rfl, rfl⟩))

/-- The texts of a `ConfirmInfo`. -/
def InfoTexts (i : ConfirmInfo) : Prop :=
  (∀ v, i.address = some v → Text v) ∧ (∀ v, i.uuid = some v → Text v) ∧ (∀ v, i.version = some v → Text v)

theorem readConfirm_fields (l : List (W16 × Val)) (i : ConfirmInfo) (ht : InfoTexts i)
    (hl : ∀ f ∈ l, ¬ confirmIds f → f.2.Fits 64) (h : l.filter (fun f => decide (confirmIds f)) = confirmFields i) (r : Bytes) :
    readConfirm ((Val.struct (fields l)).bytes ++ r) = some (filled i, r) := by
  have hstep := readStruct_fields confirmField confirmStep l (fun f hf s r => by
    by_cases hc : confirmIds f
    · left
      have hm : f ∈ l.filter (fun f => decide (confirmIds f)) := List.mem_filter.mpr ⟨hf, by simpa using hc⟩
      rw [h] at hm
      obtain ⟨id, v⟩ := f
      dsimp only at *
      obtain ⟨rfl, x, hx, rfl⟩ | ⟨rfl, x, hx, rfl⟩ | ⟨rfl, x, hx, rfl⟩ | ⟨rfl, x, hx, rfl⟩ := confirm_mem hm
      · exact ⟨_, rfl, into_eq (readStr_text x r (ht.1 x hx))⟩
      · exact ⟨_, rfl, into_eq (readStr_text x r (ht.2.1 x hx))⟩
      · exact ⟨_, rfl, into_eq (readI64_be x r)⟩
      · exact ⟨_, rfl, into_eq (readStr_text x r (ht.2.2 x hx))⟩
    · right
      have hf' := hl f hf hc
      simp only [confirmIds, not_or] at hc
      exact ⟨by rw [confirmField, if_neg hc.1, if_neg hc.2.1, if_neg hc.2.2.1, if_neg hc.2.2.2], hf',
        by rw [confirmStep, if_neg hc.1, if_neg hc.2.1, if_neg hc.2.2.1, if_neg hc.2.2.2]⟩) emptyInfo r
  rw [readConfirm]
  refine hstep.trans ?_
  congr 2
  rw [foldl_confirm_filter, h]
  obtain ⟨a, u, p, v⟩ := i
  cases a <;> cases u <;> cases p <;> cases v <;> rfl

theorem readCheckArgs_one (id : W16) (l : List (W16 × Val)) (i : ConfirmInfo)
    (hr : ∀ r, readConfirm ((Val.struct (fields l)).bytes ++ r) = some (i, r)) (r : Bytes) :
    readCheckArgs ((Val.struct (fields [(id, .struct (fields l))])).bytes ++ r) = some (i, r) := by
  rw [readCheckArgs, readStruct_fields checkField (fun _ _ => some i) _ (fun f hf s r => by
    rw [List.mem_singleton] at hf
    subst hf
    exact Or.inl ⟨_, rfl, into_eq (hr r)⟩) none r]
  rfl

/-! ## Calls that can be sent -/

theorem request_length (call : Call) (n : W32) : (request call n).length = (request call 0#32).length := by
  simp [request, message, msgHead]

theorem texts_length {call : Call} {v : Bytes} (h : v ∈ texts call) : v.length ≤ (request call 0#32).length := by
  cases call with
  | check i =>
    have key : ∀ (l : List (W16 × Val)) (id : W16), (id, Val.str v) ∈ l → v.length ≤ (fields l).bytes.length := by
      intro l id
      induction l with
      | nil => intro h; simp at h
      | cons f l ih =>
        intro h
        obtain rfl | h := List.mem_cons.mp h
        · simp [fields, Fields.bytes, Val.bytes, textBytes]; omega
        · have := ih h
          simp [fields, Fields.bytes]; omega
    have hm : ∃ id, (id, Val.str v) ∈ confirmFields i := by
      simp only [texts, List.mem_append, Option.mem_toList] at h
      obtain (h | h) | h := h
      · exact ⟨1, by simp [confirmFields, Spec.optional, Option.mem_def.mp h]⟩
      · exact ⟨2, by simp [confirmFields, Spec.optional, Option.mem_def.mp h]⟩
      · exact ⟨4, by simp [confirmFields, Spec.optional, Option.mem_def.mp h]⟩
    obtain ⟨id, hm⟩ := hm
    have := key _ id hm
    simp [request, message, argFields, fields, Val.bytes, Fields.bytes]
    omega
  | startSync => simp [texts] at h
  | endSync => simp [texts] at h
  | syncData _ => simp [texts] at h
  | _ =>
    simp only [texts, List.mem_singleton] at h
    subst h
    simp [request, message, argFields, fields, Val.bytes, Fields.bytes, textBytes]
    omega

theorem sendable_text {call : Call} (h : Sendable call) {v : Bytes} (hv : v ∈ texts call) : Text v :=
  ⟨h.1 v hv, Nat.lt_of_le_of_lt (texts_length hv) h.2⟩

theorem sendable_info {i : ConfirmInfo} (h : Sendable (.check i)) : InfoTexts i := by
  refine ⟨fun v e => ?_, fun v e => ?_, fun v e => ?_⟩ <;> refine sendable_text h ?_ <;> simp [texts, e]

theorem sendable_buffer {v : Bytes} (h : Sendable (.syncData v)) : v.length < 2 ^ 31 := by
  have := h.2
  simp [request, message, argFields, fields, Val.bytes, Fields.bytes, textBytes] at this
  omega

/-! ## The processor -/

theorem readMsgBegin_message (call : Call) (ty : MsgType) (n : W32) (body : Val) (r : Bytes) :
    readMsgBegin (message (methodName call) ty n body ++ r) = some ((methodName call, ty, n), body.bytes ++ r) := by
  rw [message, List.append_assoc]
  exact readMsgBegin_head _ _ _ _ (name_ok call).1 (name_ok call).2

/-- The answer of the processor to a call. -/
theorem respond_eq (handler : Handler) (call : Call) (number : W32) :
    respond handler (methodName call) number call = reply call number (handler call) := by
  rw [respond]
  cases handler call with
  | ok s => simp only [reply, answer, message, writeResult_eq, writeMsgBegin_eq]
  | error text => simp only [reply, exception, message, writeAppError_eq, writeMsgBegin_eq]

theorem process_check (handler : Handler) (i : ConfirmInfo) (args : List (W16 × Val)) (info : ConfirmInfo) (ty : MsgType) (n : W32)
    (r r' : Bytes) (h : readCheckArgs ((Val.struct (fields args)).bytes ++ r) = some (info, r')) :
    process handler (message (methodName (.check i)) ty n (.struct (fields args)) ++ r)
      = some (some (.check info, r'), respond handler (methodName (.check i)) n (.check info)) := by
  unfold process
  rw [readMsgBegin_message]
  simp only [processWith, h]
  rfl

theorem process_call (handler : Handler) (call : Call) (hcall : ∀ i, call ≠ .check i) (hsend : Sendable call) (args : List (W16 × Val))
    (hs : ∀ f ∈ args, f.1 ∉ (argFields call).map Prod.fst → f.2.Fits 64)
    (ha : args.filter (fun f => f.1 ∈ (argFields call).map Prod.fst) = argFields call) (ty : MsgType) (n : W32) (r : Bytes) :
    process handler (message (methodName call) ty n (.struct (fields args)) ++ r)
      = some (some (call, r), respond handler (methodName call) n call) := by
  have hstr : ∀ (rd : Rd Bytes) (v : Bytes), argFields call = [((1 : W16), Val.str v)] → (∀ r, rd (textBytes v ++ r) = some (v, r)) →
      readStrArgs rd ((Val.struct (fields args)).bytes ++ r) = some (v, r) := by
    intro rd v hv hrd
    rw [hv] at hs ha
    exact readStrArgs_fields rd args v hrd (fun f hf h1 => hs f hf (by simpa using h1)) (by simpa using ha) r
  have htext : ∀ v ∈ texts call, ∀ r, readStr (textBytes v ++ r) = some (v, r) := fun v hv r => readStr_text v r (sendable_text hsend hv)
  unfold process
  rw [readMsgBegin_message]
  cases call with
  | check i => exact absurd rfl (hcall i)
  | startSync =>
    simp only [processWith, readNoArgs_fields args (fun f hf => hs f hf (by simp [argFields]))]
    rfl
  | endSync =>
    simp only [processWith, readNoArgs_fields args (fun f hf => hs f hf (by simp [argFields]))]
    rfl
  | init v =>
    simp only [processWith, hstr readStr v rfl (htext v (by simp [texts]))]
    rfl
  | syncDeletedFileName v =>
    simp only [processWith, hstr readStr v rfl (htext v (by simp [texts]))]
    rfl
  | initSyncData v =>
    simp only [processWith, hstr readStr v rfl (htext v (by simp [texts]))]
    rfl
  | syncData v =>
    simp only [processWith, hstr readBytes v rfl (fun r => readBytes_text v r (sendable_buffer hsend))]
    rfl
  | checkDataDigest v =>
    simp only [processWith, hstr readStr v rfl (htext v (by simp [texts]))]
    rfl

/-- What arrives of a call: a field of a `ConfirmInfo` that is missing arrives as an empty one. -/
def arrives : Call → Call
  | .check i => .check (filled i)
  | c => c

theorem process_request (handler : Handler) (call : Call) (hsend : Sendable call) (n : W32) (r : Bytes) :
    process handler (request call n ++ r) = some (some (arrives call, r), respond handler (methodName call) n (arrives call)) := by
  cases call with
  | check i =>
    rw [request]
    refine process_check handler i (argFields (.check i)) (filled i) .call n r r (readCheckArgs_one _ _ _ (fun r => ?_) r)
    have hall : ∀ f ∈ confirmFields i, confirmIds f := fun f hf => by
      obtain ⟨h, _⟩ | ⟨h, _⟩ | ⟨h, _⟩ | ⟨h, _⟩ := confirm_mem hf <;> simp [confirmIds, h]
    refine readConfirm_fields _ i (sendable_info hsend) (fun f hf hn => absurd (hall f hf) hn) ?_ r
    exact List.filter_eq_self.mpr (fun f hf => by simpa using hall f hf)
  | _ =>
    refine process_call handler _ (by simp) hsend (argFields _) (fun f hf hn => absurd (List.mem_map_of_mem hf) hn) ?_ .call n r
    exact List.filter_eq_self.mpr (fun f hf => by simpa using List.mem_map_of_mem (f := Prod.fst) hf)

/-! ## The client -/

theorem receive_reply (call : Call) (n : W32) (rs : List (W16 × Val)) (s : SyncStatus) (r : Bytes)
    (h : readResult ((Val.struct (fields rs)).bytes ++ r) = some (some s, r)) :
    receive n call.name (message (methodName call) .reply n (.struct (fields rs)) ++ r) = some (some s, r) := by
  unfold receive
  rw [readMsgBegin_message]
  simp only [name_eq, if_true, h]
  rfl

theorem statusFields_ok (s : SyncStatus) (h : Text s.msg) : StatusFields (statusFields s) := by
  intro f hf
  simp only [statusFields, List.mem_cons, List.not_mem_nil, or_false] at hf
  obtain rfl | rfl := hf
  · exact ⟨fun _ => ⟨_, rfl⟩, fun h => absurd h (show (1 : W16) ≠ 2 by decide), fun h => absurd rfl h⟩
  · exact ⟨fun h => absurd h (show (2 : W16) ≠ 1 by decide), fun _ => ⟨_, rfl, h⟩, fun _ h => absurd rfl h⟩

theorem receive_answer (call : Call) (n : W32) (s : SyncStatus) (h : Text s.msg) (r : Bytes) :
    receive n call.name (answer call n s ++ r) = some (some s, r) := by
  rw [answer]
  apply receive_reply
  refine readResult_fields _ (statusFields s) s (fun r => ?_) ?_ rfl r
  · exact readStatus_fields _ (statusFields_ok s h) s.code s.msg rfl rfl r
  · intro f hf h0
    rw [List.mem_singleton] at hf
    subst hf
    exact absurd rfl h0

theorem receive_exception (call : Call) (n : W32) (e : AppError) (h : Text e.2) (r : Bytes) :
    receive n call.name (exception call n e ++ r) = some (none, r) := by
  unfold receive
  rw [exception, readMsgBegin_message, ← writeAppError_eq]
  simp only [name_eq, if_true]
  exact into_eq (readAppError_eq e h r)

theorem shortText_text {v : Bytes} (h : ShortText v) : Text v := ⟨h.1, by have := h.2; omega⟩

end TsFile.Thrift
