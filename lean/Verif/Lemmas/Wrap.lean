import Verif.Model.Vec

/-! Subtraction modulo `2^64`. -/

namespace Stats
open Vec

theorem wsub_eq {a b : ℕ} (h : b ≤ a) (ha : a < 2 ^ 64) : wsub a b = a - b := by
  rw [wsub, Nat.mod_eq_of_lt (by omega : b < 2 ^ 64)]
  omega

end Stats
