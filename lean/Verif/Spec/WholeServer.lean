import Verif.Spec.SafeServer
import Verif.Spec.Whole

/-! # Sessions in any characters in which no character is cut in two (C96) -/

namespace Ced.Spec

/-- Lines are divided by `g`; the operations cannot crash the editor (see C95), and cut no character in two. -/
def Rules.whole (g : Segmentation) : Rules :=
  ⟨fun g' => g' = g ∧ IsSegmentation g, fun _ => True, fun env w op => SafeAny env w op ∧ KeepsChars env w op⟩

end Ced.Spec
