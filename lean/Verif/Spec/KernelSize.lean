import Verif.Spec.FloatFft

/-! # The size of a kernel -/

namespace Sp

/-- The sum of the sizes of the elements of a kernel. -/
noncomputable def kernelSize {rnd : ℚ → ℚ} (ir : List (Fl rnd)) : ℝ := ((realValues ir).map abs).sum

end Sp
