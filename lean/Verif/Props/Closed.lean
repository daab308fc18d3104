import Verif.Props.Many
import Verif.Props.Flush
import Verif.Proofs.Fault
/-! # What happens after `close`: C42 -/

namespace TsFile
open Spec

theorem exec_write_ok {schema : Schema} {d m : Bytes} {t : W64} {v : IoTDBValue} {a : AState} :
    (a.exec schema (.write d m t v)).2 = .ok () ↔ ∃ ms, look d schema = some ms ∧ (a.put ms d m t v).2 = .ok () := by
  rw [AState.exec]
  cases hl : look d schema with
  | none => simp
  | some ms =>
    simp only [Option.some.injEq, exists_eq_left']
    rcases hp : a.put ms d m t v with ⟨a', r⟩
    cases r <;> simp

/-- **C42** is violated in every state: a point that `write` would have accepted before `close` is still accepted
after it. (The hypothesis on the number of points and series keeps the memory estimate below the threshold of 128 MB.) -/
theorem C42_still_accepts {env : Env} {unsnap : Bytes → Option Bytes} (hsn : SnappyOk env unsnap) {schema : Schema}
    (hwf : schema.WF) {ops : List Op} {w0 w w1 : Writer} (h : Reached env schema ops w0 w)
    (hlen : (abstractly env schema ops w0).pending.length + 1 + schema.size < 700000)
    {d m : Bytes} {t : W64} {v : IoTDBValue} (hok : (w.write env d m t v).2 = .ok ()) (hclose : w.close env = some w1) :
    (w1.write env d m t v).2 = .ok () := by
  obtain ⟨groups, hs, hl⟩ := h.sim hsn hwf
  have hinv := abstractly_inv env schema ops w0
  have hres := step_result hsn hwf hs (.write d m t v) (by simp [Op.recs]) (by simp [Op.recs]; omega)
  rw [Writer.step, hok] at hres
  obtain ⟨ms, hms, hput⟩ := exec_write_ok.1 hres.symm
  generalize abstractly env schema ops w0 = a at hlen hs hl hinv hres hput
  obtain ⟨w2, new, hf, hs2, _⟩ := sim_flush hsn hwf hs hl
  rw [Writer.close, hf] at hclose
  simp only at hclose
  split at hclose
  · simp at hclose
  · next io' hio =>
    simp only [Option.some.injEq] at hclose
    subst hclose
    -- the abstract writer accepts the point after the flush, too
    have hlow : -1 ≤ (a.last d m).toInt := by
      rw [hinv.last]
      cases hgl : (series a.pending d m).getLast? with
      | none => decide
      | some p =>
        have := (hinv.inc d m).1 p (List.mem_of_getLast? hgl)
        simp only [Option.map_some, Option.getD_some]
        omega
    have hput2 : (a.flush.put ms d m t v).2 = .ok () := by
      obtain ⟨p1, p2⟩ := put_ok.1 hput
      refine put_ok.2 ⟨?_, p2⟩
      rw [AState.flush]
      split
      · exact p1
      · simp only
        have : (-1 : W64).toInt = -1 := by decide
        omega
    have hpl : a.flush.pending.length ≤ a.pending.length := by
      rw [AState.flush]; split <;> simp
    obtain ⟨hle, ⟨hr, w3, hs3, hst, _, _, hio3⟩ | ⟨e, w3, hr, _⟩ | ⟨hr, _⟩⟩ := sim_exec hsn hs2 (.write d m t v)
    · have hp : (a.flush.exec schema (.write d m t v)).1.pending ≠ [] := by
        obtain ⟨_, h1 | h1⟩ := exec_cases schema a.flush (.write d m t v)
        · rw [h1.2.1]; simp [Op.recs]
        · exact absurd hr h1.1
      have hrec : (Op.write d m t v).recs.length = 1 := rfl
      rw [hrec] at hle
      have m1 := hs3.mem_le
      have m2 := hs3.mem_pos hp
      have m3 : w3.memSize.toNat = w3.memN := by rw [w3.memN_eq, u32_toNat _ (by omega)]
      have := hio3 io'
      rw [Writer.step] at this
      rw [this, Writer.afterOk, Writer.checkMemorySize]
      have m4 : ({ w3 with io := io' } : Writer).memSize = w3.memSize := rfl
      split
      · next hnone =>
        split at hnone
        · simp only at hnone
          rw [if_neg (by rw [m4]; omega), if_neg (by rw [m4, chunkGroupSizeThreshold]; omega)] at hnone
          simp at hnone
        · simp at hnone
      · rfl
    · rw [exec_write_ok.2 ⟨ms, hms, hput2⟩] at hr; simp at hr
    · rw [exec_write_ok.2 ⟨ms, hms, hput2⟩] at hr; simp at hr

example : ((Demo.w0.run Demo.env Demo.ops).1.close Demo.env).isSome = true
    ∧ ((Demo.w0.run Demo.env Demo.ops).1.write Demo.env (str "root.sg.d1") (str "s1") 13 (.INT 5)).2 = .ok () := by decide +kernel

example (w1 : Writer) (h : (Demo.w0.run Demo.env Demo.ops).1.close Demo.env = some w1) :
    (w1.write Demo.env (str "root.sg.d1") (str "s1") 13 (.INT 5)).2 = .ok () :=
  C42_still_accepts Demo.envOk.snappy Demo.indexable.wf Demo.reached (by decide +kernel) (by decide +kernel) h

theorem write_none {s : Sink} (h : s.cap = none) (b : Bytes) : s.write b = ⟨s.bytes ++ b, none⟩ := by
  rw [Sink.write, h]

theorem write_free (b b' : Bytes) : (⟨b, none⟩ : Sink).write b' = ⟨b ++ b', none⟩ := rfl

/-- Ending a file on an output without limit adds at least the marker, the footer size and the magic string. -/
theorem endFile_adds (env : Env) {io io' : IoWriter} (hcap : io.out.cap = none) (h : io.endFile env = some io') :
    ∃ mid size, io'.out.bytes = io.out.bytes ++ [2] ++ mid ++ be32 size ++ magic := by
  rw [IoWriter.endFile] at h
  dsimp only at h
  split at h
  · simp at h
  · split at h
    · simp at h
    · next out node hc =>
      have h2 := Grows.construct env _ _ hc
      rw [write_none hcap] at h2
      have hcap2 : out.cap = none := h2.cap
      split at h
      · simp at h
      · split at h
        · simp at h
        · next bf _ b _ =>
          simp only [Option.some.injEq] at h
          obtain ⟨mid, hm⟩ := h2.pre
          simp only at hm
          rw [← h]
          simp only [write_none hcap2, write_free]
          rw [← hm]
          generalize u32 _ = size
          exact ⟨mid ++ tsFileMetadataSerialize node io.out.pos ++ b, size, by simp only [List.append_assoc]⟩

/-- **C42** is violated for every history: when `close` returns twice, the second `close` has added a second footer to
the file, at least 11 bytes. -/
theorem C42_second_close {env : Env} {unsnap : Bytes → Option Bytes} (hsn : SnappyOk env unsnap) {schema : Schema}
    (hwf : schema.WF) {ops : List Op} {w0 w w1 w2 : Writer} (h : Reached env schema ops w0 w)
    (h1 : w.close env = some w1) (h2 : w1.close env = some w2) :
    w1.io.out.bytes <+: w2.io.out.bytes ∧ w1.io.out.bytes.length + 11 ≤ w2.io.out.bytes.length
      ∧ magic <:+ w2.io.out.bytes := by
  obtain ⟨groups, hs, hl⟩ := h.sim hsn hwf
  have hcap : w.io.out.cap = none := hs.file.cap
  have g1 := Grows.close env w h1
  have g2 := Grows.close env w1 h2
  refine ⟨g2.pre, ?_⟩
  rw [Writer.close] at h2
  split at h2
  · simp at h2
  · next w3 _ hf =>
    have g3 := Grows.flushAll env w1 hf
    split at h2
    · simp at h2
    · next io' hio =>
      simp only [Option.some.injEq] at h2
      subst h2
      obtain ⟨mid, size, e⟩ := endFile_adds env (g3.cap.trans (g1.cap.trans hcap)) hio
      simp only
      have hb : (be32 size).length = 4 := by simp [be32, length_beBytes]
      have hm : magic.length = 6 := rfl
      have := g3.pre.length_le
      rw [e]
      refine ⟨?_, List.suffix_append _ _⟩
      simp only [List.length_append, List.length_cons, List.length_nil, hb, hm]
      omega

example : (((Demo.w0.run Demo.env Demo.ops).1.close Demo.env).bind (fun w => w.close Demo.env)).isSome = true := by
  decide +kernel

end TsFile
