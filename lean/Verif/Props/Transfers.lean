import Verif.Props.EndToEnd
import Verif.Spec.Transfers
/-! # Property C97: a sender that is used again -/

namespace TsFile
open Spec Thrift

theorem got_snoc {server : Server} {sent got : List Request} {r : Request} (h : Got server (sent ++ [r]) got) :
    (∃ g, got = g ++ [r] ∧ Got server sent g) ∨ (server (sent ++ [r]) = none ∧ Got server sent got) := by
  generalize hs : sent ++ [r] = s at h
  cases h with
  | nothing => simp at hs
  | received r' h =>
    obtain ⟨rfl, e⟩ := List.append_inj' hs rfl
    cases e
    exact .inl ⟨_, rfl, h⟩
  | lost r' h hf =>
    obtain ⟨rfl, e⟩ := List.append_inj' hs rfl
    cases e
    exact .inr ⟨hf, h⟩

theorem got_passed {server : Server} {sent got : List Request} {r : Request} (h : Got server (sent ++ [r]) got)
    (hp : (server (sent ++ [r])).isSome) : ∃ g, got = g ++ [r] ∧ Got server sent g := by
  obtain h | ⟨hn, -⟩ := got_snoc h
  · exact h
  · rw [hn] at hp
    cases hp

theorem got_nil {server : Server} {got : List Request} (h : Got server [] got) : got = [] := by
  generalize hs : ([] : List Request) = s at h
  cases h with
  | nothing => rfl
  | received r h => simp at hs
  | lost r h hf => simp at hs

theorem got_append {server : Server} (before : List Request) (sent : List Request) : ∀ got, Got server (before ++ sent) got →
    ∃ g1 g2, got = g1 ++ g2 ∧ Got server before g1 ∧ Got (fun reqs => server (before ++ reqs)) sent g2 := by
  induction sent using List.reverseRecOn with
  | nil =>
    intro got h
    rw [List.append_nil] at h
    exact ⟨got, [], by simp, h, .nothing⟩
  | append_singleton sent r ih =>
    intro got h
    rw [← List.append_assoc] at h
    obtain ⟨g, rfl, h'⟩ | ⟨hf, h'⟩ := got_snoc h
    · obtain ⟨g1, g2, rfl, h1, h2⟩ := ih g h'
      exact ⟨g1, g2 ++ [r], by simp, h1, .received r h2⟩
    · obtain ⟨g1, g2, rfl, h1, h2⟩ := ih got h'
      exact ⟨g1, g2, rfl, h1, .lost r h2 (by rw [← List.append_assoc]; exact hf)⟩

/-- What one transfer adds to the files of a receiver. -/
theorem one_transfer (env : SyncEnv) (filename sg : Bytes) (schema : Schema) {sent : List Request} {out : SyncOutcome}
    (h : sync env filename sg schema = (sent, out)) {got : List Request} (hg : Got env.server sent got)
    (files : List (Bytes × Bytes)) :
    ∃ new, (got.map Request.call).foldl keep files = new ++ files
      ∧ (∀ f ∈ new, Belongs env.crc ⟨env.readFile, filename, sg, schema⟩ f)
      ∧ (out = .ok → ∃ content, env.readFile (storedName filename) = some content
        ∧ new = [(storedName filename, content), (str "mlog.bin", writeMlog env.crc sg schema)]) := by
  obtain ⟨hp, hread, hpass, hok⟩ := C36_order_partial env filename sg schema h
  have htake := List.prefix_iff_eq_take.mp hp
  have hn : sent.length ≤ 9 := by simpa [script] using hp.length_le
  have hsome : ∀ k, 0 < k → k < sent.length → k ≠ 8 → (env.server (sent.take k)).isSome := by
    intro k h0 h1 h8
    obtain ⟨s, hs, -⟩ := hpass k h0 h1 h8
    rw [hs]; rfl
  generalize hc : (env.readFile (storedName filename)).getD [] = content at *
  have hcontent : 6 < sent.length → env.readFile (storedName filename) = some content := by
    intro h6
    obtain ⟨c, hc'⟩ := Option.isSome_iff_exists.mp (hread h6)
    rw [hc'] at hc ⊢
    rw [← hc]; rfl
  have bl := Belongs.emptyLog (crc := env.crc) (t := ⟨env.readFile, filename, sg, schema⟩)
  have bL := Belongs.log (crc := env.crc) (t := ⟨env.readFile, filename, sg, schema⟩)
  have bd := Belongs.emptyData (crc := env.crc) (t := ⟨env.readFile, filename, sg, schema⟩)
  have bD := fun h => Belongs.data (crc := env.crc) (t := ⟨env.readFile, filename, sg, schema⟩) content (hcontent h)
  simp only [logOf] at bl bL bd bD
  -- the calls that are lost are the last one and the eighth
  have step : ∀ k, k ≤ sent.length → ∀ g, Got env.server (sent.take k) g → k < sent.length →
      (8 ≤ k → ∃ g8, g = g8 ++ (sent.take k).drop 8 ∧ (g8 = sent.take 7 ∨ g8 = sent.take 8)) ∧ (k < 8 → g = sent.take k) := by
    intro k
    induction k with
    | zero =>
      intro _ g hg _
      refine ⟨by omega, fun _ => ?_⟩
      rw [List.take_zero] at hg ⊢
      exact got_nil hg
    | succ k ih =>
      intro hk g hg hlt
      rw [List.take_add_one, List.getElem?_eq_getElem (by omega), Option.toList_some] at hg
      by_cases h8 : k + 1 = 8
      · refine ⟨fun _ => ?_, by omega⟩
        obtain rfl : k = 7 := by omega
        rw [show (sent.take (7 + 1)).drop 8 = [] by simp]
        obtain ⟨g', rfl, hg'⟩ | ⟨-, hg'⟩ := got_snoc hg
        · refine ⟨_, (List.append_nil _).symm, .inr ?_⟩
          rw [(ih (by omega) g' hg' (by omega)).2 (by omega), ← Option.toList_some, ← List.getElem?_eq_getElem, ← List.take_add_one]
        · exact ⟨_, (List.append_nil _).symm, .inl ((ih (by omega) g hg' (by omega)).2 (by omega))⟩
      · have hs := hsome (k + 1) (by omega) hlt h8
        rw [List.take_add_one, List.getElem?_eq_getElem (by omega), Option.toList_some] at hs
        obtain ⟨g', rfl, hg'⟩ := got_passed hg hs
        constructor
        · intro h
          exact absurd hlt (by omega)
        · intro h
          rw [(ih (by omega) g' hg' (by omega)).2 (by omega), ← Option.toList_some, ← List.getElem?_eq_getElem, ← List.take_add_one]
  have hcases : sent.length = 0 ∨ sent.length = 1 ∨ sent.length = 2 ∨ sent.length = 3 ∨ sent.length = 4 ∨ sent.length = 5
      ∨ sent.length = 6 ∨ sent.length = 7 ∨ sent.length = 8 ∨ sent.length = 9 := by omega
  have hlast : ∀ k, sent.length = k + 1 → ∃ r, sent = sent.take k ++ [r] ∧ ((∃ g, got = g ++ [r] ∧ Got env.server (sent.take k) g)
      ∨ Got env.server (sent.take k) got) := by
    intro k hk
    have e : sent = sent.take k ++ [sent[k]] := by
      rw [← Option.toList_some, ← List.getElem?_eq_getElem, ← List.take_add_one, List.take_of_length_le (by omega)]
    refine ⟨_, e, ?_⟩
    rw [e] at hg
    obtain hg | hg := got_snoc hg
    · exact .inl hg
    · exact .inr hg.2
  have hgot : ∀ k, sent.length = k + 1 → k < 8 → got = sent ∨ got = sent.take k := by
    intro k hk h8
    obtain ⟨r, e, ⟨g, rfl, hg'⟩ | hg'⟩ := hlast k hk
    · have := (step k (by omega) g hg' (by omega)).2 h8
      exact .inl (by rw [this, ← e])
    · exact .inr ((step k (by omega) got hg' (by omega)).2 h8)
  have hgot9 : sent.length = 9 → got = sent ∨ got = sent.take 8 ∨ got = sent.take 7 ∨ got = sent.take 7 ++ sent.drop 8 := by
    intro hk
    obtain ⟨r, e, ⟨g, rfl, hg'⟩ | hg'⟩ := hlast 8 hk
    · obtain ⟨g8, hg8, hor⟩ := (step 8 (by omega) g hg' (by omega)).1 (by omega)
      rw [show (sent.take 8).drop 8 = [] by simp, List.append_nil] at hg8
      subst hg8
      have hd : sent.drop 8 = [r] := by
        rw [e, List.drop_append, List.drop_take]
        simp [hk]
      obtain rfl | rfl := hor
      · exact .inr (.inr (.inr (by rw [hd])))
      · exact .inl e.symm
    · obtain ⟨g8, hg8, hor⟩ := (step 8 (by omega) got hg' (by omega)).1 (by omega)
      rw [show (sent.take 8).drop 8 = [] by simp, List.append_nil] at hg8
      subst hg8
      obtain rfl | rfl := hor
      · exact .inr (.inr (.inl rfl))
      · exact .inr (.inl rfl)
  have hnot : sent.length < 9 → out ≠ .ok := by
    intro h9 ho
    have := (hok.1 ho).1
    omega
  rcases hcases with h | h | h | h | h | h | h | h | h | h
  · have hs : sent = [] := List.length_eq_zero_iff.mp h
    subst hs
    rw [got_nil hg]
    exact ⟨[], by simp, by simp, fun ho => (hnot (by simp) ho).elim⟩
  all_goals
    have hs := htake
    rw [h] at hs
    simp only [script, List.take_succ_cons, List.take_zero, List.take_nil] at hs
  · obtain hg' | hg' := hgot 0 h (by omega) <;> rw [hg', hs]
    · exact ⟨[], by simp [keep, Request.call], by simp, fun ho => absurd ho (hnot (by omega))⟩
    · exact ⟨[], by simp [keep, Request.call], by simp, fun ho => absurd ho (hnot (by omega))⟩
  · obtain hg' | hg' := hgot 1 h (by omega) <;> rw [hg', hs]
    · exact ⟨[], by simp [keep, Request.call], by simp, fun ho => absurd ho (hnot (by omega))⟩
    · exact ⟨[], by simp [keep, Request.call], by simp, fun ho => absurd ho (hnot (by omega))⟩
  · obtain hg' | hg' := hgot 2 h (by omega) <;> rw [hg', hs]
    · exact ⟨[(str "mlog.bin", [])], by simp [keep, Request.call], by simp [bl, bL, bd], fun ho => absurd ho (hnot (by omega))⟩
    · exact ⟨[], by simp [keep, Request.call], by simp, fun ho => absurd ho (hnot (by omega))⟩
  · obtain hg' | hg' := hgot 3 h (by omega) <;> rw [hg', hs]
    · exact ⟨[(str "mlog.bin", writeMlog env.crc sg schema)], by simp [keep, Request.call], by simp [bl, bL, bd], fun ho => absurd ho (hnot (by omega))⟩
    · exact ⟨[(str "mlog.bin", [])], by simp [keep, Request.call], by simp [bl, bL, bd], fun ho => absurd ho (hnot (by omega))⟩
  · obtain hg' | hg' := hgot 4 h (by omega) <;> rw [hg', hs]
    · exact ⟨[(str "mlog.bin", writeMlog env.crc sg schema)], by simp [keep, Request.call], by simp [bl, bL, bd], fun ho => absurd ho (hnot (by omega))⟩
    · exact ⟨[(str "mlog.bin", writeMlog env.crc sg schema)], by simp [keep, Request.call], by simp [bl, bL, bd], fun ho => absurd ho (hnot (by omega))⟩
  · obtain hg' | hg' := hgot 5 h (by omega) <;> rw [hg', hs]
    · exact ⟨[(storedName filename, []), (str "mlog.bin", writeMlog env.crc sg schema)], by simp [keep, Request.call], by simp [bl, bL, bd], fun ho => absurd ho (hnot (by omega))⟩
    · exact ⟨[(str "mlog.bin", writeMlog env.crc sg schema)], by simp [keep, Request.call], by simp [bl, bL, bd], fun ho => absurd ho (hnot (by omega))⟩
  · obtain hg' | hg' := hgot 6 h (by omega) <;> rw [hg', hs]
    · exact ⟨[(storedName filename, content), (str "mlog.bin", writeMlog env.crc sg schema)], by simp [keep, Request.call], by simp [bl, bL, bd, bD (show 6 < sent.length by omega)], fun ho => absurd ho (hnot (by omega))⟩
    · exact ⟨[(storedName filename, []), (str "mlog.bin", writeMlog env.crc sg schema)], by simp [keep, Request.call], by simp [bl, bL, bd], fun ho => absurd ho (hnot (by omega))⟩
  · obtain hg' | hg' := hgot 7 h (by omega) <;> rw [hg', hs]
    · exact ⟨[(storedName filename, content), (str "mlog.bin", writeMlog env.crc sg schema)], by simp [keep, Request.call], by simp [bl, bL, bd, bD (show 6 < sent.length by omega)], fun ho => absurd ho (hnot (by omega))⟩
    · exact ⟨[(storedName filename, content), (str "mlog.bin", writeMlog env.crc sg schema)], by simp [keep, Request.call], by simp [bl, bL, bd, bD (show 6 < sent.length by omega)], fun ho => absurd ho (hnot (by omega))⟩
  · have hnew : ∀ f ∈ [(storedName filename, content), (str "mlog.bin", writeMlog env.crc sg schema)], Belongs env.crc ⟨env.readFile, filename, sg, schema⟩ f := by
      simp [bL, bD (show 6 < sent.length by omega)]
    refine ⟨[(storedName filename, content), (str "mlog.bin", writeMlog env.crc sg schema)], ?_, hnew, fun _ => ⟨content, hcontent (by omega), rfl⟩⟩
    obtain hg' | hg' | hg' | hg' := hgot9 h <;> rw [hg', hs] <;> simp [keep, Request.call]

/-- The transfers of a sender, on all calls made before. -/
theorem transfers_files (server : Server) (crc : Bytes → W32) (sha256 : Bytes → Bytes) (ts : List Transfer) :
    ∀ (before got : List Request), Got server (transfers server crc sha256 before ts).1 got →
    ∃ g1 g2 new, got = g1 ++ g2 ∧ Got server before g1
      ∧ (g2.map Request.call).foldl keep (arrived (g1.map Request.call)) = new ++ arrived (g1.map Request.call)
      ∧ (∀ f ∈ new, ∃ t ∈ ts, Belongs crc t f)
      ∧ ∀ (k : Nat) (t : Transfer), (transfers server crc sha256 before ts).2[k]? = some .ok → ts[k]? = some t →
        ∃ content, t.readFile (storedName t.filename) = some content ∧ (storedName t.filename, content) ∈ new ∧ logOf crc t ∈ new := by
  induction ts with
  | nil =>
    intro before got h
    exact ⟨got, [], [], by simp, h, by simp, by simp, by simp [transfers]⟩
  | cons t ts ih =>
    intro before got h
    rw [transfers] at h ⊢
    rcases hr : sync { server := fun reqs => server (before ++ reqs), readFile := t.readFile, crc := crc, sha256 := sha256 } t.filename t.storageGroup t.schema with ⟨sent, out⟩
    try rw [hr] at h
    dsimp only at h ⊢
    by_cases hp : out = .panic
    · rw [if_pos hp] at h ⊢
      obtain ⟨g1, g2, rfl, h1, h2⟩ := got_append before sent got h
      obtain ⟨new, hn, hb, -⟩ := one_transfer _ _ _ _ hr h2 (arrived (g1.map Request.call))
      refine ⟨g1, g2, new, rfl, h1, hn, fun f hf => ⟨t, List.mem_cons_self, hb f hf⟩, ?_⟩
      intro k u hk
      cases k with
      | zero => simp at hk
      | succ k => simp at hk
    · rw [if_neg hp] at h ⊢
      dsimp only at h ⊢
      obtain ⟨g1, g2, new2, rfl, h1, hn2, hb2, hd2⟩ := ih (before ++ sent) got h
      obtain ⟨g0, g1, rfl, h0, h1⟩ := got_append before sent g1 h1
      obtain ⟨new, hn, hb, hok⟩ := one_transfer _ _ _ _ hr h1 (arrived (g0.map Request.call))
      have ha : arrived ((g0 ++ g1).map Request.call) = new ++ arrived (g0.map Request.call) := by
        rw [← hn, arrived, List.map_append, List.foldl_append]; rfl
      refine ⟨g0, g1 ++ g2, new2 ++ new, by simp, h0, ?_, ?_, ?_⟩
      · rw [List.map_append, List.foldl_append, hn, ← ha, hn2, ha, List.append_assoc]
      · intro f hf
        obtain hf | hf := List.mem_append.mp hf
        · obtain ⟨u, hu, hbu⟩ := hb2 f hf
          exact ⟨u, List.mem_cons_of_mem _ hu, hbu⟩
        · exact ⟨t, List.mem_cons_self, hb f hf⟩
      · intro k u hk hu
        cases k with
        | zero =>
          simp only [List.getElem?_cons_zero, Option.some.injEq] at hk hu
          subst hu
          obtain ⟨content, hc, rfl⟩ := hok hk
          exact ⟨content, hc, by simp, by simp [logOf]⟩
        | succ k =>
          rw [List.getElem?_cons_succ] at hk hu
          obtain ⟨content, hc, h1, h2⟩ := hd2 k u hk hu
          exact ⟨content, hc, List.mem_append_left _ h1, List.mem_append_left _ h2⟩

/-- **C97**: whatever fails, the files of several transfers are not mixed up. Every file that the receiver has is the metadata log or
the data file of one of the transfers, under its own name and empty or whole. -/
theorem C97_own (server : Server) (crc : Bytes → W32) (sha256 : Bytes → Bytes) (ts : List Transfer) {got : List Request}
    (h : Got server (transfers server crc sha256 [] ts).1 got) :
    ∀ f ∈ arrived (got.map Request.call), ∃ t ∈ ts, Belongs crc t f := by
  obtain ⟨g1, g2, new, rfl, h1, hn, hb, -⟩ := transfers_files server crc sha256 ts [] got h
  obtain rfl := got_nil h1
  have ha : arrived (([] ++ g2).map Request.call) = new := by simpa [arrived] using hn
  rw [ha]
  exact hb

/-- **C97**: a transfer that ends with `Ok` is complete: the receiver has the metadata log and the data file, as they were at the time of
that transfer, whatever failed before and whatever fails later. -/
theorem C97_delivered (server : Server) (crc : Bytes → W32) (sha256 : Bytes → Bytes) (ts : List Transfer) {got : List Request}
    (h : Got server (transfers server crc sha256 [] ts).1 got) {k : Nat} {t : Transfer} (ht : ts[k]? = some t)
    (hk : (transfers server crc sha256 [] ts).2[k]? = some .ok) :
    ∃ content, t.readFile (storedName t.filename) = some content
      ∧ (storedName t.filename, content) ∈ arrived (got.map Request.call) ∧ logOf crc t ∈ arrived (got.map Request.call) := by
  obtain ⟨g1, g2, new, rfl, h1, hn, -, hd⟩ := transfers_files server crc sha256 ts [] got h
  obtain rfl := got_nil h1
  have ha : arrived (([] ++ g2).map Request.call) = new := by simpa [arrived] using hn
  rw [ha]
  exact hd k t hk ht

theorem transfers_append (server : Server) (crc : Bytes → W32) (sha256 : Bytes → Bytes) (ts us : List Transfer) : ∀ before : List Request,
    .panic ∉ (transfers server crc sha256 before ts).2 →
    transfers server crc sha256 before (ts ++ us)
      = ((transfers server crc sha256 (transfers server crc sha256 before ts).1 us).1,
        (transfers server crc sha256 before ts).2 ++ (transfers server crc sha256 (transfers server crc sha256 before ts).1 us).2) := by
  induction ts with
  | nil => intro before _; simp [transfers]
  | cons t ts ih =>
    intro before h
    rw [List.cons_append, transfers]
    rw [transfers] at h ⊢
    by_cases hp : (sync { server := fun reqs => server (before ++ reqs), readFile := t.readFile, crc := crc, sha256 := sha256 } t.filename t.storageGroup t.schema).2 = .panic
    · dsimp only at h
      rw [if_pos hp] at h
      simp at h
    · dsimp only at h ⊢
      rw [if_neg hp] at h ⊢
      dsimp only at h ⊢
      rw [if_neg hp, ih _ (fun hm => h (List.mem_cons_of_mem _ hm))]
      rfl

/-- **C97**: an error leaves nothing behind in the sender. After any transfers that did not abort the program, also failed ones, a
transfer succeeds if the server answers from now on, accepts the digests, and the file can be read. -/
theorem C97_again (server : Server) (crc : Bytes → W32) (sha256 : Bytes → Bytes) (ts : List Transfer) (t : Transfer)
    (hno : .panic ∉ (transfers server crc sha256 [] ts).2)
    (hs : ∀ reqs, reqs ≠ [] → ∃ status, server ((transfers server crc sha256 [] ts).1 ++ reqs) = some status
      ∧ status.code ≠ BitVec.ofInt 32 (-1)) (hr : (t.readFile (storedName t.filename)).isSome) :
    (transfers server crc sha256 [] (ts ++ [t])).2 = (transfers server crc sha256 [] ts).2 ++ [.ok] := by
  rw [transfers_append _ _ _ _ _ _ hno]
  obtain ⟨content, hc⟩ := Option.isSome_iff_exists.mp hr
  generalize (transfers server crc sha256 [] ts).1 = before at hs ⊢
  have hok : (sync { server := fun reqs => server (before ++ reqs), readFile := t.readFile, crc := crc, sha256 := sha256 } t.filename t.storageGroup t.schema).2 = .ok := by
    rcases hy : sync { server := fun reqs => server (before ++ reqs), readFile := t.readFile, crc := crc, sha256 := sha256 } t.filename t.storageGroup t.schema with ⟨sent, out⟩
    obtain ⟨hp, -, -, hok⟩ := C36_order_partial _ _ _ _ hy
    obtain ⟨h0, hwhy⟩ := C36_reason _ _ _ _ hy
    have h9 : sent.length = 9 := by
      have hle : sent.length ≤ 9 := by simpa [script] using hp.length_le
      rcases Nat.lt_or_ge sent.length 9 with h | h
      · obtain h1 | ⟨-, h1⟩ := hwhy h
        · refine absurd (fun _ => ?_) h1
          obtain ⟨status, h2, h3⟩ := hs (sent.take sent.length) (by rw [List.take_length]; exact List.ne_nil_of_length_pos h0)
          exact ⟨status, h2, fun _ => h3⟩
        · have h1 : t.readFile (storedName t.filename) = none := h1
          rw [hc] at h1
          cases h1
      · omega
    obtain ⟨status, h2, -⟩ := hs sent (List.ne_nil_of_length_pos h0)
    exact hok.2 ⟨h9, by simp [h2]⟩
  simp [transfers, hok]

/-- **C97**, the exception: a server that does not answer the first call of a transfer aborts the program, and all transfers that
were to follow are not made. -/
theorem C97_abort_wrong (server : Server) (crc : Bytes → W32) (sha256 : Bytes → Bytes) (ts us : List Transfer) (t : Transfer)
    (hno : .panic ∉ (transfers server crc sha256 [] ts).2)
    (hs : server ((transfers server crc sha256 [] ts).1 ++ [.startSync]) = none) :
    transfers server crc sha256 [] (ts ++ t :: us)
      = ((transfers server crc sha256 [] ts).1 ++ [.startSync], (transfers server crc sha256 [] ts).2 ++ [.panic]) := by
  rw [transfers_append _ _ _ _ _ _ hno]
  simp [transfers, sync, hs]

/-- What the transfers do depends on what the server does with the calls of their scripts. -/
theorem transfers_congr (server server' : Server) (crc : Bytes → W32) (sha256 : Bytes → Bytes) (P : Request → Prop)
    (hs : ∀ reqs, reqs ≠ [] → (∀ r ∈ reqs, P r) → server reqs = server' reqs) (ts : List Transfer)
    (hP : ∀ t ∈ ts, ∀ r ∈ script ⟨server, t.readFile, crc, sha256⟩ t.filename t.storageGroup (writeMlog crc t.storageGroup t.schema) ((t.readFile (storedName t.filename)).getD []), P r) :
    ∀ before : List Request, (∀ r ∈ before, P r) →
      transfers server crc sha256 before ts = transfers server' crc sha256 before ts
      ∧ ∀ r ∈ (transfers server crc sha256 before ts).1, P r := by
  induction ts with
  | nil => intro before hb; exact ⟨rfl, hb⟩
  | cons t ts ih =>
    intro before hb
    have hscript := hP t List.mem_cons_self
    have e : sync { server := fun reqs => server (before ++ reqs), readFile := t.readFile, crc := crc, sha256 := sha256 } t.filename t.storageGroup t.schema
        = sync { server := fun reqs => server' (before ++ reqs), readFile := t.readFile, crc := crc, sha256 := sha256 } t.filename t.storageGroup t.schema := by
      apply sync_congr
      · rfl
      · rfl
      · rfl
      · intro reqs hne hp
        refine hs (before ++ reqs) (by simp [hne]) (fun r hr => ?_)
        obtain hr | hr := List.mem_append.mp hr
        · exact hb r hr
        · exact hscript r (hp.subset hr)
    rw [transfers, transfers, ← e]
    rcases hy : sync { server := fun reqs => server (before ++ reqs), readFile := t.readFile, crc := crc, sha256 := sha256 } t.filename t.storageGroup t.schema with ⟨sent, out⟩
    have hb' : ∀ r ∈ before ++ sent, P r := by
      intro r hr
      obtain hr | hr := List.mem_append.mp hr
      · exact hb r hr
      · exact hscript r ((C36_order_partial _ _ _ _ hy).1.subset hr)
    dsimp only
    by_cases hp : out = .panic
    · rw [if_pos hp, if_pos hp]
      exact ⟨rfl, hb'⟩
    · obtain ⟨h1, h2⟩ := ih (fun u hu => hP u (List.mem_cons_of_mem _ hu)) (before ++ sent) hb'
      rw [if_neg hp, if_neg hp, ← h1]
      exact ⟨rfl, h2⟩

/-- **C97**, over the connection: the transfers of a sender that was connected to a server with the processor of this crate are the
transfers to the service behind it, whatever it does, and the service gets the introduction and then exactly the calls of the
transfers, in order. Missing: a call of 2^31 bytes or more (`C64_large_wrong`). -/
theorem C97_wire_partial (service : Service) (hsay : service.Sayable) (crc : Bytes → W32) (sha256 : Bytes → Bytes) (sender : SyncSender)
    (address identity : Bytes) (hintro : Sendable (introduction address identity)) (ts : List Transfer)
    (hsend : ∀ t ∈ ts, ∀ call ∈ transfer sha256 address identity t.storageGroup (logOf crc t).2 (storedName t.filename)
      ((t.readFile (storedName t.filename)).getD []), Sendable call) {sent : List Request} {outs : List SyncOutcome}
    (h : transfers (serverOver (peerOf service) sender.client [framed (request (introduction address identity) 1#32)]) crc sha256 [] ts
      = (sent, outs)) :
    transfers (fun reqs => service.status (introduction address identity :: reqs.map Request.call)) crc sha256 [] ts = (sent, outs)
    ∧ (callAll (peerOf service) sender.client [framed (request (introduction address identity) 1#32)]
        (sent.map Request.call)).2.1.filterMap received = introduction address identity :: sent.map Request.call := by
  have hrec : received (framed (request (introduction address identity) 1#32)) = some (introduction address identity) := by
    rw [← frame_eq (request_ne _ _)]
    exact received_request _ _ hintro (fun i hi => by simp only [introduction, Call.check.injEq] at hi; subst hi; simp)
  have hfm : [framed (request (introduction address identity) 1#32)].filterMap received = [introduction address identity] := by
    simp [hrec]
  have hcomp : ∀ (reqs : List Request), ∀ call ∈ reqs.map Request.call, Complete call := by
    intro reqs call hm i hi
    obtain ⟨r, _, rfl⟩ := List.mem_map.mp hm
    cases r <;> simp [Request.call] at hi
  have key : ∀ reqs : List Request, reqs ≠ [] → (∀ r ∈ reqs, Sendable r.call) → _ ∧ _ := fun reqs hne hr =>
    callAll_peerOf service hsay (reqs.map Request.call) (by simpa using hne)
      (fun call hm => by obtain ⟨r, hr', rfl⟩ := List.mem_map.mp hm; exact hr r hr') (hcomp reqs) sender.client
      [framed (request (introduction address identity) 1#32)]
  rw [hfm] at key
  obtain ⟨h1, h2⟩ := transfers_congr (serverOver (peerOf service) sender.client [framed (request (introduction address identity) 1#32)])
    (fun reqs => service.status (introduction address identity :: reqs.map Request.call)) crc sha256 (fun r => Sendable r.call)
    (fun reqs hne hr => (key reqs hne hr).1) ts
    (fun t ht r hr => hsend t ht _ (by
      have e := transfer_eq ⟨serverOver (peerOf service) sender.client [framed (request (introduction address identity) 1#32)], t.readFile, crc, sha256⟩ address identity t.filename t.storageGroup
        (writeMlog crc t.storageGroup t.schema) ((t.readFile (storedName t.filename)).getD [])
      rw [logOf]
      rw [show sha256 = (⟨serverOver (peerOf service) sender.client [framed (request (introduction address identity) 1#32)], t.readFile, crc, sha256⟩ : SyncEnv).sha256 from rfl, e]
      exact List.mem_cons_of_mem _ (List.mem_map_of_mem hr)))
    [] (by simp)
  rw [h] at h1 h2
  refine ⟨h1.symm, ?_⟩
  cases sent with
  | nil => rw [List.map_nil, callAll, hfm]
  | cons r sent => exact (key (r :: sent) (by simp) h2).2

/-- The nine calls at the receiver itself, after other calls. -/
theorem sync_keeper_after (before : List Call) (t : Transfer) (crc : Bytes → W32) (sha256 : Bytes → Bytes) {content : Bytes}
    (hr : t.readFile (storedName t.filename) = some content) :
    sync { server := fun reqs => (keeper sha256).status (before ++ reqs.map Request.call), readFile := t.readFile, crc := crc, sha256 := sha256 } t.filename t.storageGroup t.schema
      = (script ⟨fun _ => none, t.readFile, crc, sha256⟩ t.filename t.storageGroup (writeMlog crc t.storageGroup t.schema) content, .ok) := by
  have hn : namePrefix ++ t.filename = storedName t.filename := rfl
  have hm : mlogName = str "mlog.bin" := by decide +kernel
  have hd : ∀ b, asciiBytes (digestOfHash (sha256 b)) = digestText sha256 b := by
    intro b
    simp [digestText, asciiBytes, str]
  have hne : (1#32 : W32) ≠ BitVec.ofInt 32 (-1) := by decide
  simp only [sync, syncMlog, syncMlogDigest, syncFile, syncDataDigest, syncEnd, hn, hr, hm]
  simp [Service.status, keeper, Request.call, arrived, keep, hd, script, List.getLast?_append, List.foldl_append]

theorem transfers_keeper (crc : Bytes → W32) (sha256 : Bytes → Bytes) (first : Call)
    (ts : List Transfer) (hr : ∀ t ∈ ts, (t.readFile (storedName t.filename)).isSome) : ∀ before : List Request,
    (transfers (fun reqs => (keeper sha256).status (first :: reqs.map Request.call)) crc sha256 before ts).2 = List.replicate ts.length .ok
    ∧ arrived (first :: (transfers (fun reqs => (keeper sha256).status (first :: reqs.map Request.call)) crc sha256 before ts).1.map Request.call)
      = complete crc ts ++ arrived (first :: before.map Request.call) := by
  induction ts with
  | nil => intro before; simp [transfers, complete]
  | cons t ts ih =>
    intro before
    obtain ⟨content, hc⟩ := Option.isSome_iff_exists.mp (hr t List.mem_cons_self)
    have hy := sync_keeper_after (first :: before.map Request.call) t crc sha256 hc
    simp only [List.cons_append, ← List.map_append] at hy
    rw [transfers, hy]
    dsimp only
    rw [if_neg (by simp)]
    obtain ⟨h1, h2⟩ := ih (fun u hu => hr u (List.mem_cons_of_mem _ hu)) (before ++ script ⟨fun _ => none, t.readFile, crc, sha256⟩ t.filename t.storageGroup (writeMlog crc t.storageGroup t.schema) content)
    refine ⟨by rw [h1]; rfl, ?_⟩
    rw [h2]
    simp [complete, hc, logOf, arrived, script, Request.call, keep]

/-- **C97**: a sender that is connected to a receiver behind this crate's processor, which keeps what it gets and checks digests,
transfers any number of files, one after the other: all transfers succeed, and the receiver has all metadata logs and all data files,
with their names and contents. Missing: files of 2 GiB (`C64_large_wrong`). -/
theorem C97_complete_partial {cenv : ConnectEnv} {file la u file' : Option Bytes} {first : Bytes} {sender : SyncSender}
    (hnew : SyncSender.new cenv file la u = (file', first, .ok sender)) (crc : Bytes → W32) (sha256 : Bytes → Bytes)
    (hhash : ∀ b, (sha256 b).length = 32) (ts : List Transfer)
    (hself : ∀ v ∈ [sender.localAddr, sender.uuid], Utf8 v ∧ v.length ≤ 1000000)
    (htext : ∀ t ∈ ts, ∀ v ∈ [t.storageGroup, t.filename], Utf8 v ∧ v.length ≤ 1000000)
    (hlog : ∀ t ∈ ts, ((plansOf t.storageGroup t.schema).map Plan.size).sum + 2000000 ≤ 2 ^ 31)
    (hdata : ∀ t ∈ ts, ∃ content, t.readFile (storedName t.filename) = some content ∧ content.length + 1000 ≤ 2 ^ 31)
    {sent : List Request} {outs : List SyncOutcome}
    (h : transfers (serverOver (peerOf (keeper sha256)) sender.client [first]) crc sha256 [] ts = (sent, outs)) :
    outs = List.replicate ts.length .ok
    ∧ arrived ((callAll (peerOf (keeper sha256)) sender.client [first] (sent.map Request.call)).2.1.filterMap received)
      = complete crc ts
    ∧ ∀ t ∈ ts, readLog crc (logOf crc t).2 = some [[.setStorageGroup t.storageGroup], plansOf t.storageGroup t.schema] := by
  obtain ⟨-, -, -, -, rfl, -⟩ := C62_connected_partial cenv file la u file' first sender hnew
  have hlen : ∀ t ∈ ts, (logOf crc t).2.length + 1000 ≤ 2 ^ 31 := by
    intro t ht
    have := hlog t ht
    have := (htext t ht t.storageGroup (by simp)).2
    rw [logOf, writeMlog_eq]
    simp only [List.flatMap_cons, List.flatMap_nil, recordBytes, List.length_append, length_plans, plansSize, length_be32, length_be64,
      List.append_nil, length_planBytes, Plan.size]
    omega
  have hsend : ∀ (sg mlog name content : Bytes), (∀ v ∈ [sg, name], Utf8 v ∧ v.length ≤ 1000000) → mlog.length + 1000 ≤ 2 ^ 31 →
      content.length + 1000 ≤ 2 ^ 31 →
      ∀ call ∈ transfer sha256 sender.localAddr sender.uuid sg mlog (storedName name) content, Sendable call := by
    intro sg mlog name content hv hm hc
    refine sendable_transfer sha256 hhash ?_ hm hc
    intro v hv'
    simp only [List.mem_cons, List.not_mem_nil, or_false] at hv'
    obtain rfl | rfl | rfl | rfl := hv'
    · have := hself sender.localAddr (by simp); exact ⟨this.1, by omega⟩
    · have := hself sender.uuid (by simp); exact ⟨this.1, by omega⟩
    · have := hv v (by simp); exact ⟨this.1, by omega⟩
    · have := hv name (by simp)
      refine ⟨Utf8.append (by decide +kernel) this.1, by simp [storedName, str]; omega⟩
  obtain ⟨h1, h2⟩ := C97_wire_partial (keeper sha256) (keeper_sayable _) crc sha256 sender sender.localAddr sender.uuid
    (hsend [] [] [] [] (by decide +kernel) (by simp) (by simp) _ List.mem_cons_self) ts
    (fun t ht => by
      obtain ⟨content, hc, hl⟩ := hdata t ht
      exact hsend _ _ _ _ (htext t ht) (hlen t ht) (by rw [hc]; exact hl)) h
  obtain ⟨h3, h4⟩ := transfers_keeper crc sha256 (introduction sender.localAddr sender.uuid) ts
    (fun t ht => by obtain ⟨c, hc, -⟩ := hdata t ht; rw [hc]; rfl) []
  rw [h1] at h3 h4
  refine ⟨h3, ?_, ?_⟩
  · rw [h2, h4]
    simp [arrived, keep, introduction]
  · intro t ht
    have := hlog t ht
    have := (htext t ht t.storageGroup (by simp)).2
    exact C34_schema crc t.storageGroup t.schema (by omega) (by omega)

namespace Demo

/-- Two files with data, in a file system that has both. -/
def twoFiles : Bytes → Option Bytes := fun n => if n = str "0_0_f" then some [1, 2, 3] else if n = str "0_0_g" then some [4, 5] else none

/-- Their transfers. -/
def twoTransfers : List Transfer := [⟨twoFiles, str "f", str "root.a", []⟩, ⟨twoFiles, str "g", str "root.b", []⟩]

/-- A hash. -/
def plainHash (b : Bytes) : Bytes := (b ++ List.replicate 32 0).take 32

end Demo

-- two transfers over one connection
example : ∃ first sender, SyncSender.new Demo.accepted (some (str "id")) none none = (some (str "id"), first, .ok sender)
    ∧ ∃ sent, transfers (serverOver (peerOf (keeper Demo.plainHash)) sender.client [first]) crc32 Demo.plainHash [] Demo.twoTransfers
        = (sent, [.ok, .ok])
      ∧ arrived ((callAll (peerOf (keeper Demo.plainHash)) sender.client [first] (sent.map Request.call)).2.1.filterMap received)
        = [(str "0_0_g", [4, 5]), (str "mlog.bin", writeMlog crc32 (str "root.b") []), (str "0_0_f", [1, 2, 3]),
          (str "mlog.bin", writeMlog crc32 (str "root.a") [])] := by
  obtain ⟨first, sender, hnew, hself⟩ : ∃ first sender, SyncSender.new Demo.accepted (some (str "id")) none none
      = (some (str "id"), first, .ok sender)
      ∧ ∀ v ∈ [sender.localAddr, sender.uuid], Utf8 v ∧ v.length ≤ 1000000 := ⟨_, _, rfl, by decide +kernel⟩
  refine ⟨first, sender, hnew, ?_⟩
  rcases h : transfers (serverOver (peerOf (keeper Demo.plainHash)) sender.client [first]) crc32 Demo.plainHash [] Demo.twoTransfers with ⟨sent, outs⟩
  have hall : ∀ P : Transfer → Prop, P ⟨Demo.twoFiles, str "f", str "root.a", []⟩ → P ⟨Demo.twoFiles, str "g", str "root.b", []⟩ →
      ∀ t ∈ Demo.twoTransfers, P t := by
    intro P h1 h2 t ht
    simp only [Demo.twoTransfers, List.mem_cons, List.not_mem_nil, or_false] at ht
    obtain rfl | rfl := ht
    · exact h1
    · exact h2
  obtain ⟨h1, h2, -⟩ := C97_complete_partial hnew crc32 Demo.plainHash (by intro b; simp [Demo.plainHash]) Demo.twoTransfers hself
    (hall _ (by decide +kernel) (by decide +kernel)) (hall _ (by decide +kernel) (by decide +kernel))
    (hall _ ⟨[1, 2, 3], by decide +kernel, by decide⟩ ⟨[4, 5], by decide +kernel, by decide⟩) h
  refine ⟨sent, by rw [h1]; rfl, ?_⟩
  rw [h2]
  decide +kernel

-- the second call fails once: the first transfer ends with an error and is repeated, then the other file follows
example : transfers (fun reqs => if reqs.length = 2 then none else some ⟨1#32, []⟩) crc32 Demo.plainHash []
      (⟨Demo.twoFiles, str "f", str "root.a", []⟩ :: Demo.twoTransfers)
    = (.startSync :: .init (str "root.a") :: (transfers (fun _ => some ⟨1#32, []⟩) crc32 Demo.plainHash [] Demo.twoTransfers).1,
      [.err, .ok, .ok]) := by decide +kernel

-- a call that was lost
example : Got (fun reqs => if reqs.length = 2 then none else some ⟨1#32, []⟩) [.startSync, .init (str "root.a"), .startSync]
    [.startSync, .startSync] :=
  .received .startSync (.lost (sent := [.startSync]) (.init (str "root.a")) (.received .startSync .nothing) rfl)

-- the tenth call fails: the second transfer aborts the program
example : transfers (fun reqs => if reqs.length = 10 then none else some ⟨1#32, []⟩) crc32 Demo.plainHash [] Demo.twoTransfers
    = ((transfers (fun _ => some ⟨1#32, []⟩) crc32 Demo.plainHash [] (Demo.twoTransfers.take 1)).1 ++ [.startSync], [.ok, .panic]) := by
  decide +kernel

end TsFile
