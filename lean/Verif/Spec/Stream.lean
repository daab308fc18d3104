import Verif.Spec.Output
import Verif.Model.Stream
/-! # Outputs on which nothing is lost -/

namespace TsFile.Spec

/-- `content s` is what the output was given and holds, in a buffer of its own or outside: `write` adds the bytes it says it
took, and no others; `flush` neither adds nor removes anything. -/
structure Keeps {σ : Type} (p : Port σ) (content : σ → Bytes) : Prop where
  stores : Stores p.dev content
  flush : ∀ s, content (p.flush s) = content s

/-- An output on which `write_all` always succeeds, however it splits the buffer and however often it is interrupted,
and which takes buffers of at most eight bytes in one call. -/
structure Faithful {σ : Type} (p : Port σ) (content : σ → Bytes) : Prop extends Keeps p content where
  all : ∀ (w : WriteWrapper σ) (b : Bytes), ∃ w', w.writeAll p.dev (p.patience b.length) b = some (w', .ok ())
  small : ∀ (s : σ) (b : Bytes), b ≠ [] → b.length ≤ 8 → (p.dev s b).2 = .ok b.length

/-- An output with a buffer of its own: `disk s` is what of `content s` would survive a crash. `write` may put some of it
there, now or later, and never takes any of it back; `flush` puts all of it there. -/
structure Buffering {σ : Type} (p : Port σ) (content disk : σ → Bytes) : Prop extends Faithful p content where
  front : ∀ s, disk s <+: content s
  grows : ∀ s b, disk s <+: disk (p.dev s b).1
  flushed : ∀ s, disk (p.flush s) = content s

/-- The points that a history of calls may have handed over: those of the calls that returned `Ok`, and those of the calls
of `write_many` that returned an error (a beginning of the row is taken before the error). -/
def offered : List Op → List (Res Unit) → List Rec
  | .write d m t v :: ops, r :: rs => (if r = .ok () then [⟨d, m, t, v⟩] else []) ++ offered ops rs
  | .writeMany d t vs :: ops, _ :: rs => (Op.writeMany d t vs).recs ++ offered ops rs
  | _, _ => []

end TsFile.Spec
