import Verif.Model.Broadcast
import Verif.Spec.Broadcast
/-
What the drain policy looks at in the entries of the retransmit queues.
-/
namespace Verif
open Spec

instance {B : Type} : Entry (LB B) where
  transmits := LB.transmits
  size := LB.msgLen
  stamp := LB.id

end Verif
