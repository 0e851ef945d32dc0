import Verif.Spec.State

/-!
Vocabulary for C102.
-/

namespace Rgb

/-- Which of the values of its operation an item of global state is. -/
def GlobalOrd.no : GlobalOrd → Nat
  | .genesis i => i
  | .transition _ i _ _ _ => i
  | .extension _ i _ _ _ => i

/-- The order of the witness of an item of global state. -/
def GlobalOrd.ord? : GlobalOrd → Option WitnessOrd
  | .genesis _ => none
  | .transition _ _ _ _ ord => some ord
  | .extension _ _ _ _ ord => some ord

end Rgb
