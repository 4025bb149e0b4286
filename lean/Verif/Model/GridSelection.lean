import Verif.Model.HyperPE
import Verif.Model.VT

/-!
# `GridVT` as the selection function of a likelihood (`vt.py:96-102`, `hyperpe.py:219-226`)
-/

noncomputable section

namespace GW

open Fl

/-- A `GridVT` object as the selection function of a likelihood: `__call__` (`vt.py:96-102`) returns one array, not a
tuple, and an array without axes is a numpy scalar. There are no methods `detection_efficiency` and
`surveyed_hypervolume`.

Simplification: if axes are left, the likelihood becomes an array that cannot be converted to a number
(`hyperpe.py:160-163`); here the call raises `TypeError` already. -/
def GridVT.asSelection (self : GridVT) : SelectionFn where
  call := fun parameters => do
    let r ← self.call parameters
    if r.shape = [] then return .bare false (r.at_ []) else throw .typeError
  rate := none

end GW
