import Verif.Spec.Build

/-!
# A sample design for the examples

`y ~ 1 + a + a:x` with numerical `y` and `x` and a categorical `a` with three levels.  A
data set is a list of triples `(y, x, code of a)`; `-999` plays the role of NaN.
-/

namespace Patsy.Sample

open Patsy.Build Patsy.Spec Patsy.Desc

abbrev Data := List (Int × Int × Int)

def isnan (x : Int) : Bool := x == -999

def fiY : FactorInfo String Data Int :=
  ⟨0, "y", .numerical 1, fun _ d => .ok (.num 1 (d.map fun r => [r.1]), none)⟩
def fiX : FactorInfo String Data Int :=
  ⟨1, "x", .numerical 1, fun _ d => .ok (.num 1 (d.map fun r => [r.2.1]), none)⟩
def fiA : FactorInfo String Data Int :=
  ⟨2, "a", .categorical 3, fun _ d => .ok (.cat (d.map fun r => r.2.2), none)⟩

def treatment : ContrastMatrix Int := ⟨[[0, 0], [1, 0], [0, 1]], 2, ["[T.a2]", "[T.a3]"]⟩
def full : ContrastMatrix Int := ⟨[[1, 0, 0], [0, 1, 0], [0, 0, 1]], 3, ["[a1]", "[a2]", "[a3]"]⟩

def left : Coding String Data Int := ⟨[("y", fiY)], [(⟨["y"]⟩, [⟨["y"], [], 1⟩])]⟩
def right : Coding String Data Int :=
  ⟨[("a", fiA), ("x", fiX)],
   [(⟨[]⟩, [⟨[], [], 1⟩]), (⟨["a"]⟩, [⟨["a"], [("a", treatment)], 2⟩]),
    (⟨["a", "x"]⟩, [⟨["a", "x"], [("a", full)], 3⟩])]⟩

def leftDesign : DesignInfo String Data Int :=
  getOk (DesignInfo.make id ["y"] (some left)) (by decide +kernel)
def rightDesign : DesignInfo String Data Int :=
  getOk (DesignInfo.make id
    ["Intercept", "a[T.a2]", "a[T.a3]", "a[a1]:x", "a[a2]:x", "a[a3]:x"] (some right))
    (by decide +kernel)

theorem designs : List.Forall₂ IsDesign [leftDesign, rightDesign] [left, right] :=
  .cons ⟨_, _, getOk_eq _⟩ (.cons ⟨_, _, getOk_eq _⟩ .nil)

theorem mem_factors {fi : FactorInfo String Data Int} (h : fi ∈ factorsOf [left, right]) :
    fi = fiY ∨ fi = fiA ∨ fi = fiX := by
  simpa [factorsOf, left, right] using h

theorem sameIdentity : SameIdentity (factorsOf [left, right]) := by
  intro a ha b hb h
  rcases mem_factors ha with rfl | rfl | rfl <;> rcases mem_factors hb with rfl | rfl | rfl <;>
    first | rfl | (simp [fiY, fiX, fiA] at h)

theorem indexFits (ty : NATypes) (d : Data) : IndexFits ty (factorsOf [left, right]) d := by
  intro fi hf v l h
  rcases mem_factors hf with rfl | rfl | rfl <;> simp [fiY, fiX, fiA] at h

/-- Data with missing values: row 1 lacks `x`, row 3 lacks `a`, row 4 lacks `y`. -/
def data : Data := [(10, 2, 0), (20, -999, 1), (30, 3, 2), (40, 4, -1), (-999, 5, 0), (60, 6, 1)]

/-- The rows of `data` without missing values. -/
def dataComplete : Data := [(10, 2, 0), (30, 3, 2), (60, 6, 1)]

end Patsy.Sample
