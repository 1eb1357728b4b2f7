/- What one sees of a callout on a terminal, without the program. -/
import Verif.Model.Callouts
import Verif.Spec.Term

namespace Verif.TermCallouts.Spec
open Callouts (Head)

/-- The title of a callout: the one that was written, or the name of its type. -/
def title (h : Head) : Bytes := h.title.getD h.name

/-- The type in brackets. -/
def type (o : Term.Opt) (indent : Nat) (h : Head) : Bytes :=
  List.replicate (2 * indent) c!" " ++ TermStyle.style o.wide b!"b yellow" ++ b!"[" ++ h.name ++ b!"]" ++ TermStyle.reset

end Verif.TermCallouts.Spec
