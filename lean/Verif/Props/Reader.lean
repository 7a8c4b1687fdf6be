import Verif.Proofs.Reader
/-! Property C02: decoding does not depend on segmentation. -/
namespace Wm.Prot
open Wm

/-- **C02** The peer has sent the messages `fs` completely and a proper beginning `part` of another message `next`.
    However the network cut these bytes into pieces, the reader holds exactly the messages `fs`, in order, has
    reported no error, and keeps exactly `part` in its buffer. (With `part = []` the buffer is empty.) -/
theorem C02_segmentation_independent (fs : List Frame) (hfs : ∀ f ∈ fs, Fits f) (next : Frame) (hn : Fits next)
    (part : Bytes) (hpart : part <+: wire next) (hlt : part.length < (wire next).length)
    (chunks : List Bytes) (hc : chunks.flatten = fs.flatMap wire ++ part) :
    readChunks chunks = (fs.map asReceived, part, .more) := by
  have hp : ∀ p, p <+: part → ¬ Complete p := fun p hp =>
    strict_prefix_incomplete hn.1 (hp.trans hpart) (by have := hp.length_le; omega)
  have := feedAll_stream chunks fs part [] [] hfs hp (by simp [Complete]) (by simpa using hc)
  simpa [readChunks] using this

/-- Both a whole stream and a stream cut inside the second message meet the hypotheses. -/
example : readChunks [[0, 0, 1, 0, 0], [], [0, 0, 9, 0, 0, 0, 0, 104, 0, 0], [1, 0]]
    = ([.data 9 [104]], [0, 0, 1, 0], .more) :=
  C02_segmentation_independent [.data 9 [104]] (by
      intro f hf; simp at hf; subst hf; exact ⟨by simp [BodyFits], by unfold IdFits; decide⟩)
    (.data 9 [104]) ⟨by simp [BodyFits], by unfold IdFits; decide⟩ [0, 0, 1, 0]
    (by decide) (by decide) _ (by decide)

end Wm.Prot
