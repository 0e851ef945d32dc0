import Verif.Model.Core

/-!
A commitment scheme which computes to small numbers, for evaluating examples. It isn't collision-free: it is used only
where no collision-freeness is needed. Not a part of the model of the code.
-/

namespace Rgb

def calcCommit : Commit where
  sealHash s := 1000 + s.blinding
  stateHash s := match s with | .void => 0 | .fungible v _ _ => 2000 + v | .data d _ => 3000 + d | .attach a _ _ => 4000 + a
  opHash op := 100 + op.nonce
  bundleHash _ m := (m.map Prod.snd).foldl (· + ·) 500

end Rgb
