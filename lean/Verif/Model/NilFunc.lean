import Verif.Model.SortAny
import Verif.Model.SkipListM
import Verif.Model.Callback
/-!
# Nil functions

A value of a function type may be nil, as in `NewSkipListFunc[K, V](nil)`. No function of the library tests for this, except `MakePoolWithNew` (`/repo/pool.go:15`), which is in
`Model/Pool.lean`. Elsewhere a nil function is passed on and stored like any other, and calling it panics, which changes nothing.
-/
namespace Stl4go
variable {σ α : Type}

/-- A call of a nil function (of a type such as those in `/repo/types.go:45,51`): a run-time panic, before anything else happens. -/
def nilCall : GoM σ α := fun s => .panic s

end Stl4go
