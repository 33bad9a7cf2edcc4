import Verif.Props.Checked

/-! Properties C12 and C43: `safe_compare.hpp`. -/

namespace Verif.Props
open SafeCompare
section
variable [Arch]

/-- C12 -/
theorem C12_safeCompare (T U : ITy) (t u : Int) (ht : T.In t) (hu : U.In u) :
    (lessThan T U t u = true ↔ t < u) ∧ (greaterThan T U t u = true ↔ t > u) ∧
    (lessThanEqual T U t u = true ↔ t ≤ u) ∧ (greaterThanEqual T U t u = true ↔ t ≥ u) ∧
    (equal T U t u = true ↔ t = u) ∧ (notEqual T U t u = true ↔ t ≠ u) := by
  rw [lessThan_eq ht hu, greaterThan_eq ht hu, lessThanEqual_eq ht hu, greaterThanEqual_eq ht hu,
    equal_eq ht hu, notEqual_eq ht hu]
  simp

example : @lessThan lp64 i32 u32 (-1) 0 = true ∧ @cLt lp64 i32 u32 (-1) 0 = false := by decide
example : @equal lp64 i64 u64 (-1) (2^64 - 1) = false ∧ @cEq lp64 i64 u64 (-1) (2^64 - 1) = true := by decide
example : i32.In (-1) ∧ u32.In 0 := by decide

/-- C43: trichotomy -/
theorem C43_trichotomy (T U : ITy) (t u : Int) (ht : T.In t) (hu : U.In u) :
    (lessThan T U t u = true ∧ equal T U t u = false ∧ greaterThan T U t u = false) ∨
    (lessThan T U t u = false ∧ equal T U t u = true ∧ greaterThan T U t u = false) ∨
    (lessThan T U t u = false ∧ equal T U t u = false ∧ greaterThan T U t u = true) := by
  rw [lessThan_eq ht hu, greaterThan_eq ht hu, equal_eq ht hu]
  simp only [decide_eq_true_eq, decide_eq_false_iff_not]
  omega

/-- C43: transitivity across three types -/
theorem C43_transitive (T U V : ITy) (t u v : Int) (ht : T.In t) (hu : U.In u) (hv : V.In v) :
    (lessThan T U t u = true → lessThan U V u v = true → lessThan T V t v = true) ∧
    (equal T U t u = true → equal U V u v = true → equal T V t v = true) ∧
    (equal T U t u = true → lessThan U V u v = true → lessThan T V t v = true) ∧
    (lessThanEqual T U t u = true → lessThanEqual U V u v = true → lessThanEqual T V t v = true) := by
  rw [lessThan_eq ht hu, lessThan_eq hu hv, lessThan_eq ht hv, equal_eq ht hu, equal_eq hu hv, equal_eq ht hv,
    lessThanEqual_eq ht hu, lessThanEqual_eq hu hv, lessThanEqual_eq ht hv]
  simp only [decide_eq_true_eq]
  omega

/-- C43: equality is preserved by a successful cast, and so is order against any third value. -/
theorem C43_cast_preserves (R T U : ITy) (t v u : Int) (ht : T.In t) (hu : U.In u)
    (h : checkedCast R T t = .ret (.ok v)) :
    equal R T v t = true ∧ lessThan R U v u = lessThan T U t u ∧ equal R U v u = equal T U t u := by
  obtain ⟨r, e, h1, -⟩ := C01_checkedCast R T t ht
  rw [e] at h
  simp only [Out.ret.injEq] at h
  obtain ⟨rfl, hR⟩ := (h1 v).mp h
  rw [equal_eq hR ht, lessThan_eq hR hu, lessThan_eq ht hu, equal_eq hR hu, equal_eq ht hu]
  simp

example : @lessThan lp64 i8 u64 (-5) 3 = true ∧ @lessThan lp64 u64 i32 3 100 = true := by decide

end
end Verif.Props
