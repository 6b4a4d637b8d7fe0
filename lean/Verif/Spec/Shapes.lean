import Verif.Model.Shapes

/-! What a signed distance is, and the sets. -/
namespace Verif.Shapes

/-- `f` is the signed distance to `s`: outside it is the distance to the nearest point of the set, inside its negative is the largest radius of a ball in the set. -/
def SignedDistance {n : ℕ} (s : Set (V n)) (f : V n → ℝ) : Prop :=
  ∀ x, (x ∉ s → 0 < f x ∧ (∀ y ∈ s, f x ≤ len (x - y)) ∧ ∃ y ∈ s, len (x - y) = f x) ∧
    (x ∈ s → f x ≤ 0 ∧ (∀ y, len (x - y) < -f x → y ∈ s) ∧ ∀ e > 0, ∃ y ∉ s, len (x - y) < -f x + e)

/-- The box between two corners. -/
def boxSet {n : ℕ} (b : V n × V n) : Set (V n) := { x | ∀ i, b.1 i ≤ x i ∧ x i ≤ b.2 i }

/-- The box is the smallest one around the set. -/
def Bounding {n : ℕ} (s : Set (V n)) (b : V n × V n) : Prop := s ⊆ boxSet b ∧ ∀ c, s ⊆ boxSet c → boxSet b ⊆ boxSet c

def Plane.set {n : ℕ} (p : Plane n) : Set (V n) := { x | ∑ i, p.normal i * x i ≤ ∑ i, p.normal i * p.origin i }

def Cuboid.set {n : ℕ} (c : Cuboid n) : Set (V n) := boxSet (c.min, c.max)

def Sphere.set {n : ℕ} (s : Sphere n) : Set (V n) := { x | len (x - s.center) ≤ s.radius }

/-- Points between bottom and top whose projection to the plane of the bottom is in the disk. -/
def Cylinder.set (c : Cylinder) : Set (V 3) :=
  { x | c.bottom c.d ≤ x c.d ∧ x c.d ≤ c.bottom c.d + c.length ∧ len (Function.update (x - c.bottom) c.d 0) ≤ c.radius }

end Verif.Shapes
