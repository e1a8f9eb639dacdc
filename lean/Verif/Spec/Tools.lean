import Verif.Spec.HeaderOps
import Verif.Model.Tools.Hash
/-!
# Vocabulary for hashing and overwriting files
-/
namespace Volaris.Spec

/-- The incremental hasher computes the hash function `digest`: however the message is cut into pieces, the result is the digest of the
whole message. -/
def Computes {σ : Type} (H : HashCmd.Hasher σ) (digest : Bytes → String) : Prop :=
  ∀ pieces : List Bytes, H.finish (pieces.foldl H.write H.init) = digest pieces.flatten

end Volaris.Spec
