import Verif.Model.Conversation
import Verif.Spec.Conversation
import Verif.Props.Interface
/-! # Property C98: a connection after a failed call -/

namespace TsFile.Thrift
open Spec

theorem stopsAt_receive {seq : W32} {name b r : Bytes} {st : Option SyncStatus} (h : receive seq name b = some (st, r)) :
    stopsAt seq name b = some r := by
  unfold receive at h
  unfold stopsAt
  cases hb : readMsgBegin b with
  | none => simp [hb] at h
  | some p =>
    obtain ⟨⟨n, ty, s⟩, body⟩ := p
    simp only [hb] at h ⊢
    by_cases h1 : s = seq
    · by_cases h2 : n = name
      · by_cases h3 : ty = .exception
        · rw [if_pos h1, if_pos h2, if_pos h3] at h ⊢
          unfold into at h
          cases he : readAppError body with
          | none => simp [he] at h
          | some q => simp only [he, Option.map_some, Option.some.injEq, Prod.mk.injEq] at h ⊢; exact h.2
        · by_cases h4 : ty = .reply
          · rw [if_pos h1, if_pos h2, if_neg h3, if_pos h4] at h ⊢
            rw [h]; rfl
          · rw [if_pos h1, if_pos h2, if_neg h3, if_neg h4] at h; simp at h
      · rw [if_pos h1, if_neg h2] at h; simp at h
    · rw [if_neg h1] at h; simp at h

theorem talk_total (c : Client) (b : Bytes) (calls : List Call) : ∃ results, Talk c b calls results := by
  induction calls generalizing c b with
  | nil => exact ⟨_, .nil c b⟩
  | cons call calls ih =>
    cases hs : stopsAt (c.sequenceNumber + 1#32) call.name b with
    | some r =>
      obtain ⟨rs, h⟩ := ih (c.invoke call (some b)).1 r
      exact ⟨_, .cons (rest := r) (by unfold Leaves; rw [hs]) h⟩
    | none =>
      obtain ⟨rs, h⟩ := ih (c.invoke call (some b)).1 b
      exact ⟨_, .cons (rest := b) (by unfold Leaves; rw [hs]; exact List.suffix_refl b) h⟩

theorem seen_total (c : Client) (b : Bytes) : ∃ server, SeenThrough c b server := by
  choose f hf using fun reqs : List Request => talk_total c b (reqs.map Request.call)
  exact ⟨fun reqs => (f reqs).getLast?.join, fun reqs => ⟨f reqs, hf reqs, rfl⟩⟩

theorem receive_reply_any (call : Call) (n : W32) (a : Except AppError SyncStatus) (h : Sayable a) (r : Bytes) :
    receive n call.name (reply call n a ++ r) = some (outcome a, r) := by
  cases a with
  | ok s => exact receive_answer call n s (shortText_text h) r
  | error e => exact receive_exception call n e (shortText_text h) r

/-- One call on a connection. -/
theorem talk_cons {c : Client} {b : Bytes} {call : Call} {calls : List Call} {results : List (Option SyncStatus)}
    (h : Talk c b (call :: calls) results) :
    ∃ rest later, results = (c.invoke call (some b)).2.2 :: later ∧ Leaves (c.sequenceNumber + 1#32) call.name b rest
      ∧ Talk (c.invoke call (some b)).1 rest calls later := by
  cases h with
  | cons left next => exact ⟨_, _, rfl, left, next⟩

theorem leaves_eq {seq : W32} {name b r rest : Bytes} (hs : stopsAt seq name b = some r) (h : Leaves seq name b rest) : rest = r := by
  unfold Leaves at h; rw [hs] at h; exact h

/-- **C98**, the part that holds: if a server answers every call once, in order, with a status or with an error of its own, every call
returns what was answered to it, also behind calls that failed; what else comes in is left for later calls. Missing: answers that
belong to no call, `C98_stray_wrong`. -/
theorem C98_in_step_partial (c : Client) (l : List (Call × Except AppError SyncStatus)) (hsay : ∀ x ∈ l, Sayable x.2) (rest : Bytes)
    (more : List Call) (results : List (Option SyncStatus))
    (h : Talk c (answers c.sequenceNumber l ++ rest) (l.map Prod.fst ++ more) results) :
    ∃ later, results = l.map (fun x => outcome x.2) ++ later
      ∧ Talk { sequenceNumber := c.sequenceNumber + BitVec.ofNat 32 l.length } rest more later := by
  induction l generalizing c results with
  | nil =>
    refine ⟨results, rfl, ?_⟩
    have h : Talk c rest more results := h
    have hc : ({ sequenceNumber := c.sequenceNumber + BitVec.ofNat 32 0 } : Client) = c := by simp
    rw [List.length_nil, hc]; exact h
  | cons x l ih =>
    obtain ⟨call, a⟩ := x
    have hb : answers c.sequenceNumber ((call, a) :: l) ++ rest
        = reply call (c.sequenceNumber + 1#32) a ++ (answers (c.sequenceNumber + 1#32) l ++ rest) := by
      rw [answers, List.append_assoc]
    rw [hb] at h
    obtain ⟨r, later, rfl, hl, ht⟩ := talk_cons h
    have hr := receive_reply_any call (c.sequenceNumber + 1#32) a (hsay _ List.mem_cons_self)
      (answers (c.sequenceNumber + 1#32) l ++ rest)
    have hrest := leaves_eq (stopsAt_receive hr) hl
    subst hrest
    obtain ⟨later', rfl, ht'⟩ := ih { sequenceNumber := c.sequenceNumber + 1#32 } (fun x hx => hsay x (List.mem_cons_of_mem _ hx)) later ht
    refine ⟨later', ?_, ?_⟩
    · simp only [Client.invoke, hr, Option.bind_some, List.map_cons, List.cons_append]
    · have hn : c.sequenceNumber + 1#32 + BitVec.ofNat 32 l.length = c.sequenceNumber + BitVec.ofNat 32 (l.length + 1) := by
        rw [BitVec.add_assoc, ← BitVec.ofNat_add]; congr 2; omega
      have ht' : Talk { sequenceNumber := c.sequenceNumber + 1#32 + BitVec.ofNat 32 l.length } rest more later' := ht'
      rw [hn] at ht'; exact ht'

/-! ## An answer that belongs to no call -/

theorem be32_split (x : W32) : ∃ a b c d, be32 x = [a, b, c, d] := by
  unfold be32
  exact ⟨_, _, _, _, rfl⟩

theorem answer_body (s : SyncStatus) : ∃ a b tail, (Val.struct (fields [(0, .struct (fields (statusFields s)))])).bytes
    = [12, 0, 0, 8] ++ ([0, 1, a, b] ++ tail) := by
  obtain ⟨a, b, c, d, hc⟩ := be32_split s.code
  refine ⟨a, b, c :: d :: ?_, ?_⟩
  rotate_left
  · simp only [statusFields, fields, Val.bytes, Fields.bytes, Val.type, typeNumber, hc]
    simp [beBytes]
    rfl

theorem exception_body (text : Bytes) (kind : W32) : ∃ a tail, (Val.struct (fields [(1, .str text), (2, .i32 kind)])).bytes
    = [11, 0, 1, a] ++ tail := by
  obtain ⟨a, b, c, d, hc⟩ := be32_split (u32 text.length)
  refine ⟨a, b :: c :: d :: ?_, ?_⟩
  rotate_left
  · simp only [fields, Val.bytes, Fields.bytes, Val.type, typeNumber, textBytes, hc]
    simp [beBytes]
    rfl

/-- A message that is not the one that a call waits for is read up to the end of its head. -/
theorem stray_head {c : Client} {stray x : Call} {ty : MsgType} {n : W32} {body : Val} {rest : Bytes}
    (hn : n ≠ c.sequenceNumber + 1#32 ∨ methodName stray ≠ methodName x ∨ (ty ≠ .reply ∧ ty ≠ .exception)) :
    (c.invoke x (some (message (methodName stray) ty n body ++ rest))).2.2 = none
    ∧ stopsAt (c.sequenceNumber + 1#32) x.name (message (methodName stray) ty n body ++ rest) = some (body.bytes ++ rest) := by
  simp only [Client.invoke]
  unfold receive stopsAt
  rw [readMsgBegin_message]
  simp only [name_eq]
  by_cases h1 : n = c.sequenceNumber + 1#32
  · have h2 := hn.resolve_left (not_not.mpr h1)
    rw [if_pos h1, if_pos h1]
    by_cases h3 : methodName stray = methodName x
    · obtain ⟨h4, h5⟩ := h2.resolve_left (not_not.mpr h3)
      rw [if_pos h3, if_pos h3, if_neg h5, if_neg h5, if_neg h4, if_neg h4]
      exact ⟨rfl, rfl⟩
    · rw [if_neg h3, if_neg h3]
      exact ⟨rfl, rfl⟩
  · rw [if_neg h1, if_neg h1]
    exact ⟨rfl, rfl⟩

theorem readN_four (a b c d : UInt8) (r : Bytes) : readN 4 ([a, b, c, d] ++ r) = some ([a, b, c, d], r) := by
  simp [readN]

/-- Four bytes that are neither a version nor a length of less than 2^27 are an error. -/
theorem bad_version {c : Client} {x : Call} {a b d e : UInt8} {rest : Bytes} (h8 : 8 ≤ a) (hv : ¬ [a, b] = [0x80, 0x01]) :
    (c.invoke x (some ([a, b, d, e] ++ rest))).2.2 = none
    ∧ stopsAt (c.sequenceNumber + 1#32) x.name ([a, b, d, e] ++ rest) = some rest := by
  have hb : readMsgBegin ([a, b, d, e] ++ rest) = none := by
    unfold readMsgBegin
    rw [readN_four]
    simp only [List.headD_cons, h8, if_true, List.take_succ_cons, List.take_zero, hv, if_false]
  simp only [Client.invoke]
  unfold receive stopsAt headStop
  rw [hb, readN_four]
  refine ⟨rfl, ?_⟩
  simp only [List.headD_cons, h8, List.take_succ_cons, List.take_zero, ne_eq, hv, not_false_eq_true, and_self, if_true]

/-- A name that is longer than those of the interface. -/
theorem long_name {c : Client} {x : Call} {a b : UInt8} {rest : Bytes} :
    (c.invoke x (some ([0, 1, a, b] ++ rest))).2.2 = none := by
  simp only [Client.invoke]
  unfold receive readMsgBegin
  rw [readN_four]
  simp only [List.headD_cons, show ¬ (8 : UInt8) ≤ 0 by decide, if_false]
  cases hn : readN (beVal [0, 1, a, b]) rest with
  | none => rfl
  | some p =>
    obtain ⟨name, r⟩ := p
    have hlen : 65536 ≤ name.length := by
      unfold readN at hn
      split at hn
      · next hle =>
        simp only [Option.some.injEq, Prod.mk.injEq] at hn
        rw [← hn.1, List.length_take, Nat.min_eq_left hle]
        simp [beVal]; omega
      · simp at hn
    have hne : name ≠ x.name := by
      intro h
      rw [h] at hlen
      cases x <;> simp [Call.name, nCheck, nStartSync, nInit, nSyncDeletedFileName, nInitSyncData, nSyncData, nCheckDataDigest, nEndSync] at hlen
    simp only
    split
    · next p q hq =>
      split at hq
      · split at hq
        · simp at hq
        · split at hq
          · simp at hq
          · obtain ⟨v, hv, hw⟩ := into_some hq
            simp only [Prod.mk.injEq] at hw
            rw [if_neg (fun h => hne (hw.1 ▸ h))]
            split <;> rfl
      · simp at hq
    · rfl

/-- **C98** is false: after an answer that belongs to no call, for instance one that came twice, the call that reads it fails, and the
next call fails as well, whatever is answered to it. -/
theorem C98_stray_wrong (c : Client) (stray x y : Call) (n : W32) (a : Except AppError SyncStatus) (rest : Bytes)
    (hn : n ≠ c.sequenceNumber + 1#32 ∨ methodName stray ≠ methodName x) (more : List Call) (results : List (Option SyncStatus))
    (h : Talk c (reply stray n a ++ rest) (x :: y :: more) results) : ∃ later, results = none :: none :: later := by
  obtain ⟨r, later, rfl, hl, ht⟩ := talk_cons h
  obtain ⟨r', later', rfl, hl', ht'⟩ := talk_cons ht
  cases a with
  | ok s =>
    obtain ⟨h1, h2⟩ := stray_head (c := c) (ty := .reply) (body := .struct (fields [(0, .struct (fields (statusFields s)))])) (rest := rest) (hn.imp_right .inl)
    have hr := leaves_eq h2 hl
    obtain ⟨p, q, tail, hb⟩ := answer_body s
    rw [hb, List.append_assoc] at hr
    subst hr
    refine ⟨later', ?_⟩
    rw [(bad_version (by decide) (by decide)).1]
    exact congrArg (· :: _) h1
  | error e =>
    obtain ⟨h1, h2⟩ := stray_head (c := c) (ty := .exception) (body := .struct (fields [(1, .str e.2), (2, .i32 e.1)])) (rest := rest) (hn.imp_right .inl)
    have hr := leaves_eq h2 hl
    obtain ⟨p, tail, hb⟩ := exception_body e.2 e.1
    rw [hb, List.append_assoc] at hr
    subst hr
    refine ⟨later', ?_⟩
    rw [(bad_version (by decide) (by decide)).1]
    exact congrArg (· :: _) h1

/-- **C98** is false: if that answer is a status, the third call fails as well. -/
theorem C98_stray_status_wrong (c : Client) (stray x y z : Call) (n : W32) (s : SyncStatus) (rest : Bytes)
    (hn : n ≠ c.sequenceNumber + 1#32 ∨ methodName stray ≠ methodName x) (more : List Call) (results : List (Option SyncStatus))
    (h : Talk c (answer stray n s ++ rest) (x :: y :: z :: more) results) : ∃ later, results = none :: none :: none :: later := by
  obtain ⟨r, later, rfl, hl, ht⟩ := talk_cons h
  obtain ⟨r', later', rfl, hl', ht'⟩ := talk_cons ht
  obtain ⟨r'', later'', rfl, hl'', ht''⟩ := talk_cons ht'
  obtain ⟨h1, h2⟩ := stray_head (c := c) (ty := .reply) (body := .struct (fields [(0, .struct (fields (statusFields s)))])) (rest := rest) (hn.imp_right .inl)
  have hr := leaves_eq h2 hl
  obtain ⟨p, q, tail, hb⟩ := answer_body s
  rw [hb, List.append_assoc] at hr
  subst hr
  have hbad := bad_version (c := (c.invoke x (some (answer stray n s ++ rest))).1) (x := y) (a := 12) (b := 0) (d := 0) (e := 8)
    (rest := [0, 1, p, q] ++ tail ++ rest) (by decide) (by decide)
  have hr' := leaves_eq hbad.2 hl'
  rw [List.append_assoc] at hr'
  subst hr'
  refine ⟨later'', ?_⟩
  rw [long_name, hbad.1]
  exact congrArg (· :: _) h1

/-- **C98** is false: the same if what comes is no answer at all but a message of another kind, a call for instance, even one with the
number and the name of the call that waits: this call and the next two fail. -/
theorem C98_kind_wrong (c : Client) (stray x y z : Call) (ty : MsgType) (n : W32) (s : SyncStatus) (rest : Bytes)
    (hk : ty ≠ .reply ∧ ty ≠ .exception) (more : List Call) (results : List (Option SyncStatus))
    (h : Talk c (message (methodName stray) ty n (.struct (fields [(0, .struct (fields (statusFields s)))])) ++ rest) (x :: y :: z :: more)
      results) : ∃ later, results = none :: none :: none :: later := by
  obtain ⟨r, later, rfl, hl, ht⟩ := talk_cons h
  obtain ⟨r', later', rfl, hl', ht'⟩ := talk_cons ht
  obtain ⟨r'', later'', rfl, hl'', ht''⟩ := talk_cons ht'
  obtain ⟨h1, h2⟩ := stray_head (c := c) (stray := stray) (x := x) (ty := ty) (n := n)
    (body := .struct (fields [(0, .struct (fields (statusFields s)))])) (rest := rest) (.inr (.inr hk))
  have hr := leaves_eq h2 hl
  obtain ⟨p, q, tail, hb⟩ := answer_body s
  rw [hb, List.append_assoc] at hr
  subst hr
  have hbad := bad_version (c := (c.invoke x (some (message (methodName stray) ty n (.struct (fields [(0, .struct (fields (statusFields s)))]))
    ++ rest))).1) (x := y) (a := 12) (b := 0) (d := 0) (e := 8) (rest := [0, 1, p, q] ++ tail ++ rest) (by decide) (by decide)
  have hr' := leaves_eq hbad.2 hl'
  rw [List.append_assoc] at hr'
  subst hr'
  refine ⟨later'', ?_⟩
  rw [long_name, hbad.1]
  exact congrArg (· :: _) h1

/-- **C98** is false for transfers: a server accepts the first two calls of a sender, but its second answer comes twice. The transfer
ends with an error. Whatever the server does from then on, the next transfer with this sender aborts the program at its first
call. -/
theorem C98_retry_wrong (c : Client) (server : Server) (crc : Bytes → W32) (sha256 : Bytes → Bytes) (t t' : Transfer) (ts : List Transfer)
    (s s' : SyncStatus) (hs : ShortText s.msg) (hs' : ShortText s'.msg) (rest : Bytes)
    (h : SeenThrough c (answer .startSync (c.sequenceNumber + 1#32) s ++ (answer (.init t.storageGroup) (c.sequenceNumber + 2#32) s'
      ++ (answer (.init t.storageGroup) (c.sequenceNumber + 2#32) s' ++ rest))) server) :
    transfers server crc sha256 [] (t :: t' :: ts)
      = ([.startSync, .init t.storageGroup, .initSyncData (str "mlog.bin"), .startSync], [.err, .panic]) := by
  have hb : ∀ tail : Bytes, answer .startSync (c.sequenceNumber + 1#32) s ++ (answer (.init t.storageGroup) (c.sequenceNumber + 2#32) s' ++ tail)
      = answers c.sequenceNumber [(.startSync, .ok s), (.init t.storageGroup, .ok s')] ++ tail := by
    intro tail
    have h2 : c.sequenceNumber + 1#32 + 1#32 = c.sequenceNumber + 2#32 := by rw [BitVec.add_assoc]; rfl
    simp only [answers, reply, List.append_nil, List.append_assoc, h2]
  have hsay : ∀ x ∈ [((Call.startSync, Except.ok s) : Call × Except AppError SyncStatus), (.init t.storageGroup, .ok s')], Sayable x.2 := by
    intro x hx
    simp only [List.mem_cons, List.not_mem_nil, or_false] at hx
    obtain rfl | rfl := hx
    · exact hs
    · exact hs'
  rw [hb] at h
  have hne : c.sequenceNumber + 2#32 ≠ c.sequenceNumber + 2#32 + 1#32 := by
    intro h
    have h1 : c.sequenceNumber + 2#32 + 0#32 = c.sequenceNumber + 2#32 + 1#32 := by rw [BitVec.add_zero]; exact h
    exact absurd ((BitVec.add_right_inj _).mp h1) (by decide)
  -- the four calls
  have h1 : server [.startSync] = some s := by
    obtain ⟨rs, ht, he⟩ := h [.startSync]
    have ht : Talk c (answers c.sequenceNumber [(.startSync, .ok s)] ++ (answer (.init t.storageGroup) (c.sequenceNumber + 2#32) s'
      ++ (answer (.init t.storageGroup) (c.sequenceNumber + 2#32) s' ++ rest)))
        ([((Call.startSync, Except.ok s) : Call × Except AppError SyncStatus)].map Prod.fst ++ []) rs := by
      rw [← hb] at ht
      simp only [answers, reply, List.append_nil]
      exact ht
    obtain ⟨later, rfl, hl⟩ := C98_in_step_partial c [(.startSync, .ok s)] (fun x hx => hsay x (by simp_all)) _ [] rs ht
    cases hl
    rw [he]; rfl
  have h2 : server [.startSync, .init t.storageGroup] = some s' := by
    obtain ⟨rs, ht, he⟩ := h [.startSync, .init t.storageGroup]
    obtain ⟨later, rfl, hl⟩ := C98_in_step_partial c _ hsay _ [] rs ht
    cases hl
    rw [he]; rfl
  have h3 : server [.startSync, .init t.storageGroup, .initSyncData mlogName] = none := by
    obtain ⟨rs, ht, he⟩ := h [.startSync, .init t.storageGroup, .initSyncData mlogName]
    obtain ⟨later, rfl, hl⟩ := C98_in_step_partial c _ hsay _ [.initSyncData mlogName] rs ht
    obtain ⟨r, later', rfl, _, hl'⟩ := talk_cons hl
    cases hl'
    have := (stray_head (c := { sequenceNumber := c.sequenceNumber + 2#32 }) (stray := .init t.storageGroup) (x := .initSyncData mlogName)
      (ty := .reply) (n := c.sequenceNumber + 2#32) (body := .struct (fields [(0, .struct (fields (statusFields s')))])) (rest := rest) (.inl hne)).1
    rw [he]
    exact this
  have h4 : server [.startSync, .init t.storageGroup, .initSyncData mlogName, .startSync] = none := by
    obtain ⟨rs, ht, he⟩ := h [.startSync, .init t.storageGroup, .initSyncData mlogName, .startSync]
    obtain ⟨later, rfl, hl⟩ := C98_in_step_partial c _ hsay _ [.initSyncData mlogName, .startSync] rs ht
    obtain ⟨l, rfl⟩ := C98_stray_wrong { sequenceNumber := c.sequenceNumber + 2#32 } (.init t.storageGroup) (.initSyncData mlogName) .startSync
      (c.sequenceNumber + 2#32) (.ok s') rest (.inl hne) [] later hl
    have hlen : l = [] := by
      obtain ⟨r, later', h5, _, hl'⟩ := talk_cons hl
      simp only [List.cons.injEq] at h5
      obtain ⟨r', later'', h6, _, hl''⟩ := talk_cons hl'
      cases hl''
      have := h5.2.trans h6
      simp only [List.cons.injEq] at this
      exact this.2
    rw [he, hlen]; rfl
  have hm : mlogName = str "mlog.bin" := by decide
  rw [← hm]
  simp [transfers, sync, syncMlog, h1, h2, h3, h4]

/-! ## The hypotheses can be met -/

/-- A server that refuses a call and accepts the next one: the client returns an error and then the status. -/
example : ∀ rest results, Talk Client.new (answers 0#32 [(.init (str "root"), .error (0#32, str "no")), (.startSync, .ok ⟨1#32, str "ok"⟩)] ++ rest)
      [.init (str "root"), .startSync] results → results = [none, some ⟨1#32, str "ok"⟩] := by
  intro rest results h
  obtain ⟨later, rfl, hl⟩ := C98_in_step_partial Client.new
    [(.init (str "root"), .error (0#32, str "no")), (.startSync, .ok ⟨1#32, str "ok"⟩)]
    (by
      intro x hx
      simp only [List.mem_cons, List.not_mem_nil, or_false] at hx
      obtain rfl | rfl := hx
      · exact ⟨(utf8_iff _).mp (by decide), by decide⟩
      · exact ⟨(utf8_iff _).mp (by decide), by decide⟩) rest [] results h
  cases hl
  rfl

/-- There are connections of this kind and servers that are seen through them. -/
example : ∃ server results, SeenThrough Client.new (answer .startSync 1#32 ⟨1#32, []⟩ ++ (answer (.init []) 2#32 ⟨1#32, []⟩
      ++ (answer (.init []) 2#32 ⟨1#32, []⟩ ++ answer (.initSyncData (str "mlog.bin")) 3#32 ⟨1#32, []⟩))) server
    ∧ Talk Client.new (answer .startSync 7#32 ⟨1#32, []⟩ ++ answer .startSync 1#32 ⟨1#32, []⟩) [.startSync, .startSync, .startSync] results := by
  obtain ⟨server, h⟩ := seen_total Client.new (answer .startSync 1#32 ⟨1#32, []⟩ ++ (answer (.init []) 2#32 ⟨1#32, []⟩
      ++ (answer (.init []) 2#32 ⟨1#32, []⟩ ++ answer (.initSyncData (str "mlog.bin")) 3#32 ⟨1#32, []⟩)))
  obtain ⟨results, h'⟩ := talk_total Client.new (answer .startSync 7#32 ⟨1#32, []⟩ ++ answer .startSync 1#32 ⟨1#32, []⟩)
    [.startSync, .startSync, .startSync]
  exact ⟨server, results, h, h'⟩

/-- A call that comes back to the one who made it, with the answer in it. -/
example : ∃ results, Talk Client.new (message (methodName .startSync) .call 1#32 (.struct (fields [(0, .struct (fields (statusFields ⟨1#32, []⟩)))]))
      ++ answer .startSync 1#32 ⟨1#32, []⟩) [.startSync, .startSync, .startSync] results ∧ results.take 3 = [none, none, none] := by
  obtain ⟨results, h⟩ := talk_total Client.new (message (methodName .startSync) .call 1#32
    (.struct (fields [(0, .struct (fields (statusFields ⟨1#32, []⟩)))])) ++ answer .startSync 1#32 ⟨1#32, []⟩) [.startSync, .startSync, .startSync]
  obtain ⟨later, rfl⟩ := C98_kind_wrong Client.new .startSync .startSync .startSync .startSync .call 1#32 ⟨1#32, []⟩ _ ⟨by decide, by decide⟩ [] results h
  exact ⟨_, h, rfl⟩

end TsFile.Thrift
