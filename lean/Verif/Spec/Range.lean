/-
The range of integers.
-/
namespace Drone
namespace Spec

/-- A number that an `int64` holds. -/
def Fits64 (i : Int) : Prop := -2 ^ 63 ≤ i ∧ i < 2 ^ 63

instance (i : Int) : Decidable (Fits64 i) := inferInstanceAs (Decidable (_ ∧ _))

end Spec
end Drone
