import Verif.Spec.Trace
/-!
# What an error says
-/
namespace Verif

/-- What an error of a component says has happened; `i` is the number of the hop that is concerned: a file or stream could not be read, written or flushed, a program closed its input, or what was
sent along the hop was refused. The same bytes and the operating system's reason are told. -/
def MErr.Says (i : Nat) : MErr → Act → Prop
  | .readIO _ x, a => ∃ s, a = .readErr s x
  | .writeIO _ x d, a => ∃ s, a = .offer (.handle s) d (.other x)
  | .closeIO _, a => ∃ s, a = .flush s false
  | .outputClosed _ .brokenPipe d, a => ∃ s, a = .offer (.handle s) d (.closed .brokenPipe)
  | .outputClosed _ .channelClosed d, a => a = .offer (.chan i) d (.closed .channelClosed)
  | .send _ d, a => a = .offer (.chan i) d (.closed .channelClosed)
  | _, _ => False

end Verif
