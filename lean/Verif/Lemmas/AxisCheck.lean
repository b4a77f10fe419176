import Verif.Lemmas.AxisFree
import Verif.Lemmas.Checks
/-! The check of `off_axis` gives `AxisFree`. -/
namespace Festa
variable {K : Type} [Field K] [DecidableEq K]

theorem free_axis {E : Crv K} (hE : E.Good) {p q : Pt K} {X Y : MPoint E.A} (hp : PRep p X) (hq : PRep q Y) {n r m : Nat}
    (hr : r ≠ 0) (h : E.offAxis p q n r = true) : AxisFree m Y X := .of_not_mem (off_axis hE hp hq hr h)

end Festa
