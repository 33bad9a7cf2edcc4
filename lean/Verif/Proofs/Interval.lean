import Verif.Interval
import Verif.Proofs.CRShift
import Verif.Proofs.Utility2

/-! Helper lemmas about `minmax` on checked results and about the interval operators. -/

namespace Verif
open Spec

section
variable [Arch]

/-- position of a non-vague checked result on the integer line -/
def CR.key (R : ITy) : CR → Int
  | .ok v => v
  | .err .negative_overflow_error => R.min - 1
  | .err .positive_overflow_error => R.max + 1
  | .err _ => 0

omit [Arch] in
theorem vague_iff {c : CR} : Vague c ↔ (∃ e, c = .err e) ∧ c ≠ .err .positive_overflow_error ∧
    c ≠ .err .negative_overflow_error := by
  constructor
  · rintro ⟨e, rfl, h1, h2⟩; exact ⟨⟨e, rfl⟩, by simpa, by simpa⟩
  · rintro ⟨⟨e, rfl⟩, h1, h2⟩; exact ⟨e, rfl, by simpa using h1, by simpa using h2⟩

omit [Arch] in
theorem not_vague_ok (v : Int) : ¬ Vague (.ok v) := by rintro ⟨e, h, _⟩; simp at h
omit [Arch] in
theorem not_vague_neg : ¬ Vague (.err .negative_overflow_error) := by rintro ⟨e, h, _, h2⟩; simp at h; exact h2 h.symm
omit [Arch] in
theorem not_vague_pos : ¬ Vague (.err .positive_overflow_error) := by rintro ⟨e, h, h2, _⟩; simp at h; exact h2 h.symm

theorem crLtB_vague {R : ITy} {a b : CR} (h : Vague a ∨ Vague b) : crLtB R a b = false := by
  unfold crLtB
  have : crLt R a b = .ind := by
    rcases h with h | h
    · have f := h.sumFlag
      obtain ⟨e, rfl, _⟩ := h
      show ltTable _ _ = _
      rw [f]; cases sumFlag b <;> rfl
    · have f := h.sumFlag
      obtain ⟨e, rfl, _⟩ := h
      have : crLt R a (.err e) = ltTable (sumFlag a) (sumFlag (.err e)) := by cases a <;> rfl
      rw [this, f]; cases sumFlag a <;> rfl
  rw [this]; rfl

theorem crLtB_key {R : ITy} {a b : CR} (ha : Proper R a) (hb : Proper R b) (va : ¬ Vague a) (vb : ¬ Vague b) :
    crLtB R a b = decide (a.key R < b.key R) := by
  have hm := R.min_le_max
  rcases a.cases4 with ⟨x, rfl⟩ | rfl | rfl | hv
  · have := ha.1; have := ha.2
    rcases b.cases4 with ⟨y, rfl⟩ | rfl | rfl | hv
    · exact crLt_toBool ha hb
    · exact (decide_eq_false (by simp only [CR.key]; omega)).symm
    · exact (decide_eq_true (by simp only [CR.key]; omega)).symm
    · exact absurd hv vb
  · rcases b.cases4 with ⟨y, rfl⟩ | rfl | rfl | hv
    · have := hb.1; exact (decide_eq_true (by simp only [CR.key]; omega)).symm
    · exact (decide_eq_false (by simp only [CR.key]; omega)).symm
    · exact (decide_eq_true (by simp only [CR.key]; omega)).symm
    · exact absurd hv vb
  · rcases b.cases4 with ⟨y, rfl⟩ | rfl | rfl | hv
    · have := hb.2; exact (decide_eq_false (by simp only [CR.key]; omega)).symm
    · exact (decide_eq_false (by simp only [CR.key]; omega)).symm
    · exact (decide_eq_false (by simp only [CR.key]; omega)).symm
    · exact absurd hv vb
  · exact absurd hv va

/-- `minmax` skips vague elements once it has started with one that is not vague -/
theorem minmax_key {R : ITy} : ∀ (l : List CR) (p : CR × CR), (∀ c ∈ l, Proper R c) →
    Proper R p.1 → Proper R p.2 → ¬ Vague p.1 → ¬ Vague p.2 → p.1.key R ≤ p.2.key R →
    let q := l.foldl (minmaxStep (crLtB R)) p
    Proper R q.1 ∧ Proper R q.2 ∧ ¬ Vague q.1 ∧ ¬ Vague q.2 ∧ q.1.key R ≤ p.1.key R ∧ p.2.key R ≤ q.2.key R ∧
      (q.1 = p.1 ∨ q.1 ∈ l) ∧ (q.2 = p.2 ∨ q.2 ∈ l) ∧
      ∀ c ∈ l, ¬ Vague c → q.1.key R ≤ c.key R ∧ c.key R ≤ q.2.key R := by
  intro l
  induction l with
  | nil => intro p _ h1 h2 h3 h4 _; simp [h1, h2, h3, h4]
  | cons i l ih =>
    intro p hl h1 h2 h3 h4 h5
    have hi := hl i (by simp)
    have hl' : ∀ c ∈ l, Proper R c := fun c hc => hl c (by simp [hc])
    by_cases vi : Vague i
    · have : minmaxStep (crLtB R) p i = p := by
        unfold minmaxStep; rw [crLtB_vague (Or.inl vi), crLtB_vague (Or.inr vi)]; simp
      simp only [List.foldl_cons, this]
      obtain ⟨a, b, c, d, e, f, g1, g2, g⟩ := ih p hl' h1 h2 h3 h4 h5
      refine ⟨a, b, c, d, e, f, g1.imp id (fun h => List.mem_cons_of_mem _ h), g2.imp id (fun h => List.mem_cons_of_mem _ h), ?_⟩
      intro x hx vx
      rcases List.mem_cons.mp hx with rfl | hx
      · exact absurd vi vx
      · exact g x hx vx
    · have k1 := crLtB_key hi h1 vi h3
      have k2 := crLtB_key h2 hi h4 vi
      simp only [List.foldl_cons]
      by_cases c1 : i.key R < p.1.key R
      · rw [show minmaxStep (crLtB R) p i = (i, p.2) by unfold minmaxStep; rw [k1, if_pos (by simpa using c1)]]
        obtain ⟨a, b, c, d, e, f, g1, g2, g⟩ := ih (i, p.2) hl' hi h2 vi h4 (by simp only; omega)
        simp only [] at a b c d e f g1 g2 g ⊢
        refine ⟨a, b, c, d, by omega, f, ?_, g2.imp id (fun h => List.mem_cons_of_mem _ h), ?_⟩
        · right; rcases g1 with g1 | g1 <;> simp [g1]
        · intro x hx vx
          rcases List.mem_cons.mp hx with rfl | hx
          · exact ⟨e, by omega⟩
          · exact g x hx vx
      · by_cases c2 : p.2.key R < i.key R
        · rw [show minmaxStep (crLtB R) p i = (p.1, i) by
            unfold minmaxStep; rw [k1, k2, if_neg (by simpa using c1), if_pos (by simpa using c2)]]
          obtain ⟨a, b, c, d, e, f, g1, g2, g⟩ := ih (p.1, i) hl' h1 hi h3 vi (by simp only; omega)
          simp only [] at a b c d e f g1 g2 g ⊢
          refine ⟨a, b, c, d, e, by omega, g1.imp id (fun h => List.mem_cons_of_mem _ h), ?_, ?_⟩
          · right; rcases g2 with g2 | g2 <;> simp [g2]
          · intro x hx vx
            rcases List.mem_cons.mp hx with rfl | hx
            · exact ⟨by omega, f⟩
            · exact g x hx vx
        · rw [show minmaxStep (crLtB R) p i = p by
            unfold minmaxStep; rw [k1, k2, if_neg (by simpa using c1), if_neg (by simpa using c2)]]
          obtain ⟨a, b, c, d, e, f, g1, g2, g⟩ := ih p hl' h1 h2 h3 h4 h5
          refine ⟨a, b, c, d, e, f, g1.imp id (fun h => List.mem_cons_of_mem _ h), g2.imp id (fun h => List.mem_cons_of_mem _ h), ?_⟩
          intro x hx vx
          rcases List.mem_cons.mp hx with rfl | hx
          · exact ⟨by omega, by omega⟩
          · exact g x hx vx

theorem minmax_first_vague {R : ITy} (a : CR) (va : Vague a) :
    ∀ (l : List CR), l.foldl (minmaxStep (crLtB R)) (a, a) = (a, a) := by
  intro l
  induction l with
  | nil => rfl
  | cons i l ih =>
    have : minmaxStep (crLtB R) (a, a) i = (a, a) := by
      unfold minmaxStep; rw [crLtB_vague (Or.inr va), crLtB_vague (Or.inl va)]; simp
    rw [List.foldl_cons, this, ih]

/-- What `minmax` of a non-empty list of proper checked results returns. -/
theorem minmax_cr {R : ITy} (a : CR) (l : List CR) (h : ∀ c ∈ a :: l, Proper R c) :
    ∃ m M, minmax (crLtB R) (a :: l) = .ret (m, M) ∧ m ∈ a :: l ∧ M ∈ a :: l ∧
      ((Vague a ∧ m = a ∧ M = a) ∨
       (¬ Vague a ∧ ¬ Vague m ∧ ¬ Vague M ∧
        ∀ c ∈ a :: l, ¬ Vague c → m.key R ≤ c.key R ∧ c.key R ≤ M.key R)) := by
  unfold minmax
  by_cases va : Vague a
  · exact ⟨a, a, congrArg Out.ret (minmax_first_vague a va _), by simp, by simp, Or.inl ⟨va, rfl, rfl⟩⟩
  · have ha := h a (by simp)
    obtain ⟨_, _, c, d, _, _, g1, g2, g⟩ := minmax_key (a :: l) (a, a) h ha ha va va (Int.le_refl _)
    exact ⟨_, _, rfl, by simpa using g1, by simpa using g2, Or.inr ⟨va, c, d, g⟩⟩

omit [Arch] in
theorem vague_lowerOk {R : ITy} {c : CR} {z : Int} (h : Vague c) (hp : Proper R c) : LowerOk R c z := by
  obtain ⟨e, rfl, h1, h2⟩ := h
  cases e <;> first | contradiction | exact trivial

omit [Arch] in
theorem vague_upperOk {R : ITy} {c : CR} {z : Int} (h : Vague c) (hp : Proper R c) : UpperOk R c z := by
  obtain ⟨e, rfl, h1, h2⟩ := h
  cases e <;> first | contradiction | exact trivial

/-- soundness of the ends computed by `minmax` of corners -/
theorem minmax_bounds {R : ITy} {a : CR} {l : List CR} {z : Int} (h : ∀ c ∈ a :: l, Proper R c)
    (lo : ¬ Vague a → ∀ L, R.min ≤ L → L ≤ R.max + 1 → (∀ c ∈ a :: l, ¬ Vague c → L ≤ c.key R) → L ≤ z)
    (hi : ¬ Vague a → ∀ U, R.min - 1 ≤ U → U ≤ R.max → (∀ c ∈ a :: l, ¬ Vague c → c.key R ≤ U) → z ≤ U) :
    ∃ m M, minmax (crLtB R) (a :: l) = .ret (m, M) ∧ Proper R m ∧ Proper R M ∧ LowerOk R m z ∧ UpperOk R M z := by
  obtain ⟨m, M, e, hm, hM, hh⟩ := minmax_cr a l h
  have pm := h m hm; have pM := h M hM
  refine ⟨m, M, e, pm, pM, ?_⟩
  rcases hh with ⟨va, rfl, rfl⟩ | ⟨va, vm, vM, hh⟩
  · exact ⟨vague_lowerOk va pm, vague_upperOk va pM⟩
  · have hmm := R.min_le_max
    constructor
    · rcases m.cases4 with ⟨v, rfl⟩ | rfl | rfl | hv
      · have := pm.1; have := pm.2
        exact lo va v (by omega) (by omega) (fun c hc vc => (hh c hc vc).1)
      · exact trivial
      · exact lo va (R.max + 1) (by omega) (by omega) (fun c hc vc => (hh c hc vc).1)
      · exact absurd hv vm
    · rcases M.cases4 with ⟨v, rfl⟩ | rfl | rfl | hv
      · have := pM.1; have := pM.2
        exact hi va v (by omega) (by omega) (fun c hc vc => (hh c hc vc).2)
      · have := hi va (R.min - 1) (by omega) (by omega) (fun c hc vc => (hh c hc vc).2)
        show z < R.min; omega
      · exact trivial
      · exact absurd hv vM

omit [Arch] in
theorem proper_exactOr {R : ITy} (v : Int) : Proper R (exactOr R.min R.max v) := by
  unfold exactOr; split_ifs
  · show _ ≠ _; decide
  · show _ ≠ _; decide
  · exact ⟨by omega, by omega⟩

omit [Arch] in
theorem key_exactOr_lo {R : ITy} {v L : Int} (h1 : R.min ≤ L) (h2 : L ≤ R.max + 1)
    (h : L ≤ (exactOr R.min R.max v).key R) : L ≤ v := by
  unfold exactOr at h; split_ifs at h <;> simp only [CR.key] at h <;> omega

omit [Arch] in
theorem key_exactOr_hi {R : ITy} {v U : Int} (h1 : R.min - 1 ≤ U) (h2 : U ≤ R.max)
    (h : (exactOr R.min R.max v).key R ≤ U) : v ≤ U := by
  unfold exactOr at h; split_ifs at h <;> simp only [CR.key] at h <;> omega

omit [Arch] in
theorem not_vague_exactOr {lo hi v : Int} : ¬ Vague (exactOr lo hi v) := by
  unfold exactOr; split_ifs
  · exact not_vague_pos
  · exact not_vague_neg
  · exact not_vague_ok _

/-! ### product of intervals -/

omit [Arch] in
theorem corner_lower {a b c d x y L : Int} (hx1 : a ≤ x) (hx2 : x ≤ b) (hy1 : c ≤ y) (hy2 : y ≤ d)
    (h1 : L ≤ a * c) (h2 : L ≤ a * d) (h3 : L ≤ b * c) (h4 : L ≤ b * d) : L ≤ x * y := by
  rcases Int.le_total 0 y with hy | hy
  · have : a * y ≤ x * y := by nlinarith
    rcases Int.le_total 0 a with ha | ha
    · have : a * c ≤ a * y := by nlinarith
      omega
    · have : a * d ≤ a * y := by nlinarith
      omega
  · have : b * y ≤ x * y := by nlinarith
    rcases Int.le_total 0 b with ha | ha
    · have : b * c ≤ b * y := by nlinarith
      omega
    · have : b * d ≤ b * y := by nlinarith
      omega

omit [Arch] in
theorem corner_upper {a b c d x y U : Int} (hx1 : a ≤ x) (hx2 : x ≤ b) (hy1 : c ≤ y) (hy2 : y ≤ d)
    (h1 : a * c ≤ U) (h2 : a * d ≤ U) (h3 : b * c ≤ U) (h4 : b * d ≤ U) : x * y ≤ U := by
  have := corner_lower (a := -b) (b := -a) (c := c) (d := d) (x := -x) (y := y) (L := -U)
    (by omega) (by omega) hy1 hy2 (by rw [Int.neg_mul]; omega) (by rw [Int.neg_mul]; omega)
    (by rw [Int.neg_mul]; omega) (by rw [Int.neg_mul]; omega)
  rw [Int.neg_mul] at this; omega

/-- `v` may stand for the checked result `c`: markers are represented by far away integers -/
def Rep (K : Int) : CR → Int → Prop
  | .ok w, v => v = w
  | .err .negative_overflow_error, v => v ≤ -K
  | .err .positive_overflow_error, v => K ≤ v
  | .err _, _ => False

theorem crMul_rep {R : ITy} (hR : R.Ok) {c d : CR} {v w K : Int} (hK : 1 ≤ K) (pc : Proper R c) (pd : Proper R d)
    (hv : Rep K c v) (hw : Rep K d w) :
    ∃ e, crMul R c d = .ret e ∧ Proper R e ∧ ¬ Vague e ∧
      (∀ L, R.min ≤ L → L ≤ R.max + 1 → L ≤ K → L ≤ e.key R → L ≤ v * w) ∧
      (∀ U, R.min - 1 ≤ U → U ≤ R.max → -K ≤ U → e.key R ≤ U → v * w ≤ U) := by
  have hz := R.min_nonpos; have hm := R.max_ge
  have pos : Proper R (.err .positive_overflow_error) := by show _ ≠ _; decide
  have neg : Proper R (.err .negative_overflow_error) := by show _ ≠ _; decide
  -- a marker on the positive side, true product at least K
  have P : ∀ {z : Int}, K ≤ z →
      (Proper R (.err .positive_overflow_error) ∧ ¬ Vague (.err .positive_overflow_error) ∧
      (∀ L, R.min ≤ L → L ≤ R.max + 1 → L ≤ K → L ≤ CR.key R (.err .positive_overflow_error) → L ≤ z) ∧
      (∀ U, R.min - 1 ≤ U → U ≤ R.max → -K ≤ U → CR.key R (.err .positive_overflow_error) ≤ U → z ≤ U)) := by
    intro z hz
    refine ⟨pos, not_vague_pos, fun L _ _ _ _ => by omega, fun U _ _ _ h => ?_⟩
    simp only [CR.key] at h; omega
  have N : ∀ {z : Int}, z ≤ -K →
      (Proper R (.err .negative_overflow_error) ∧ ¬ Vague (.err .negative_overflow_error) ∧
      (∀ L, R.min ≤ L → L ≤ R.max + 1 → L ≤ K → L ≤ CR.key R (.err .negative_overflow_error) → L ≤ z) ∧
      (∀ U, R.min - 1 ≤ U → U ≤ R.max → -K ≤ U → CR.key R (.err .negative_overflow_error) ≤ U → z ≤ U)) := by
    intro z hz
    refine ⟨neg, not_vague_neg, fun L _ _ _ h => ?_, fun U _ _ _ h => by omega⟩
    simp only [CR.key] at h; omega
  have Z : ∀ {z : Int}, z = 0 →
      (Proper R (.ok 0) ∧ ¬ Vague (.ok 0) ∧
      (∀ L, R.min ≤ L → L ≤ R.max + 1 → L ≤ K → L ≤ CR.key R (.ok 0) → L ≤ z) ∧
      (∀ U, R.min - 1 ≤ U → U ≤ R.max → -K ≤ U → CR.key R (.ok 0) ≤ U → z ≤ U)) := by
    rintro z rfl
    exact ⟨R.in_zero, not_vague_ok _, fun L _ _ _ h => h, fun U _ _ _ h => h⟩
  rcases c.cases4 with ⟨a, rfl⟩ | rfl | rfl | hvg
  · obtain rfl : v = a := hv
    rcases d.cases4 with ⟨b, rfl⟩ | rfl | rfl | hvg
    · obtain rfl : w = b := hw
      refine ⟨_, crMul_ok hR pc pd, proper_exactOr _, not_vague_exactOr, ?_, ?_⟩
      · intro L h1 h2 _ h; exact key_exactOr_lo h1 h2 h
      · intro U h1 h2 _ h; exact key_exactOr_hi h1 h2 h
    · have hw' : w ≤ -K := hw
      refine ⟨_, crMul_ok_neg pc, ?_⟩
      rcases Int.lt_trichotomy v 0 with h | h | h
      · rw [if_pos h]; exact P (by nlinarith)
      · subst h; exact Z (by simp)
      · rw [if_neg (by omega), if_pos h]; exact N (by nlinarith)
    · have hw' : K ≤ w := hw
      refine ⟨_, crMul_ok_pos pc, ?_⟩
      rcases Int.lt_trichotomy v 0 with h | h | h
      · rw [if_pos h]; exact N (by nlinarith)
      · subst h; exact Z (by simp)
      · rw [if_neg (by omega), if_pos h]; exact P (by nlinarith)
    · obtain ⟨e, rfl, h1, h2⟩ := hvg; cases e <;> contradiction
  · have hv' : v ≤ -K := hv
    rcases d.cases4 with ⟨b, rfl⟩ | rfl | rfl | hvg
    · obtain rfl : w = b := hw
      refine ⟨_, crMul_neg_ok pd, ?_⟩
      rcases Int.lt_trichotomy w 0 with h | h | h
      · rw [if_pos h]; exact P (by nlinarith)
      · subst h; exact Z (by simp)
      · rw [if_neg (by omega), if_pos h]; exact N (by nlinarith)
    · have hw' : w ≤ -K := hw
      exact ⟨_, rfl, P (by nlinarith)⟩
    · have hw' : K ≤ w := hw
      exact ⟨_, rfl, N (by nlinarith)⟩
    · obtain ⟨e, rfl, h1, h2⟩ := hvg; cases e <;> contradiction
  · have hv' : K ≤ v := hv
    rcases d.cases4 with ⟨b, rfl⟩ | rfl | rfl | hvg
    · obtain rfl : w = b := hw
      refine ⟨_, crMul_pos_ok pd, ?_⟩
      rcases Int.lt_trichotomy w 0 with h | h | h
      · rw [if_pos h]; exact N (by nlinarith)
      · subst h; exact Z (by simp)
      · rw [if_neg (by omega), if_pos h]; exact P (by nlinarith)
    · have hw' : w ≤ -K := hw
      exact ⟨_, rfl, N (by nlinarith)⟩
    · have hw' : K ≤ w := hw
      exact ⟨_, rfl, P (by nlinarith)⟩
    · obtain ⟨e, rfl, h1, h2⟩ := hvg; cases e <;> contradiction
  · obtain ⟨e, rfl, h1, h2⟩ := hvg; cases e <;> contradiction

omit [Arch] in
/-- a representative of a lower end that is at most `x` -/
theorem rep_lower {R : ITy} {c : CR} {x K : Int} (h : LowerOk R c x) (hp : c ≠ .err .positive_overflow_error)
    (hv : ¬ Vague c) : ∃ v, Rep K c v ∧ v ≤ x := by
  rcases c.cases4 with ⟨a, rfl⟩ | rfl | rfl | hvg
  · exact ⟨a, rfl, h⟩
  · rcases Int.le_total x (-K) with g | g
    · exact ⟨x, g, Int.le_refl _⟩
    · exact ⟨-K, Int.le_refl (-K), g⟩
  · exact absurd rfl hp
  · exact absurd hvg hv

omit [Arch] in
theorem rep_upper {R : ITy} {c : CR} {x K : Int} (h : UpperOk R c x) (hp : c ≠ .err .negative_overflow_error)
    (hv : ¬ Vague c) : ∃ v, Rep K c v ∧ x ≤ v := by
  rcases c.cases4 with ⟨a, rfl⟩ | rfl | rfl | hvg
  · exact ⟨a, rfl, h⟩
  · exact absurd rfl hp
  · rcases Int.le_total K x with g | g
    · exact ⟨x, g, Int.le_refl _⟩
    · exact ⟨K, Int.le_refl K, g⟩
  · exact absurd hvg hv

theorem itvMul_contains {R : ITy} (hR : R.Ok) {t u : Itv CR} {x y : Int}
    (ptl : Proper R t.l) (ptu : Proper R t.u) (pul : Proper R u.l) (puu : Proper R u.u)
    (htl : t.l ≠ .err .positive_overflow_error) (htu : t.u ≠ .err .negative_overflow_error) (vtu : ¬ Vague t.u)
    (hul : u.l ≠ .err .positive_overflow_error) (huu : u.u ≠ .err .negative_overflow_error) (vuu : ¬ Vague u.u)
    (xl : LowerOk R t.l x) (xu : UpperOk R t.u x) (yl : LowerOk R u.l y) (yu : UpperOk R u.u y) :
    ∃ i, itvMul R t u = .ret i ∧ Proper R i.l ∧ Proper R i.u ∧ LowerOk R i.l (x * y) ∧ UpperOk R i.u (x * y) := by
  have hz := R.min_nonpos; have hm := R.max_ge
  have pr : Proper R (.err .range_error) := by show _ ≠ _; decide
  unfold itvMul corners minmax4
  -- existence of the four corners, whatever the ends are
  have ex : ∀ c d : CR, Proper R c → Proper R d → ∃ e, crMul R c d = .ret e ∧ Proper R e ∧
      ((Vague c ∨ Vague d) → Vague e) := by
    intro c d pc pd
    by_cases vc : Vague c ∨ Vague d
    · exact ⟨_, crMul_vague vc, pr, fun _ => ⟨_, rfl, by decide, by decide⟩⟩
    · have rep : ∀ c : CR, ¬ Vague c → ∃ v, Rep 1 c v := by
        intro c hc
        rcases c.cases4 with ⟨a, rfl⟩ | rfl | rfl | hvg
        · exact ⟨a, rfl⟩
        · exact ⟨-1, Int.le_refl (-1)⟩
        · exact ⟨1, Int.le_refl 1⟩
        · exact absurd hvg hc
      obtain ⟨v, hv⟩ := rep c (fun h => vc (Or.inl h))
      obtain ⟨w, hw⟩ := rep d (fun h => vc (Or.inr h))
      obtain ⟨e, h1, h2, _⟩ := crMul_rep hR (Int.le_refl 1) pc pd hv hw
      exact ⟨e, h1, h2, fun h => absurd h vc⟩
  obtain ⟨c1, e1, p1, g1⟩ := ex _ _ ptl pul
  obtain ⟨c2, e2, p2, _⟩ := ex _ _ ptl puu
  obtain ⟨c3, e3, p3, _⟩ := ex _ _ ptu pul
  obtain ⟨c4, e4, p4, _⟩ := ex _ _ ptu puu
  simp only [e1, e2, e3, e4, Out.ret_bind]
  have hp : ∀ c ∈ [c1, c2, c3, c4], Proper R c := by
    intro c hc; simp at hc; rcases hc with rfl | rfl | rfl | rfl <;> assumption
  have main : ¬ Vague c1 → ∀ K : Int, 1 ≤ K →
      ∃ a b c d : Int, a ≤ x ∧ x ≤ b ∧ c ≤ y ∧ y ≤ d ∧
      (∀ L, R.min ≤ L → L ≤ R.max + 1 → L ≤ K → (∀ c ∈ [c1, c2, c3, c4], ¬ Vague c → L ≤ c.key R) →
        L ≤ a * c ∧ L ≤ a * d ∧ L ≤ b * c ∧ L ≤ b * d) ∧
      (∀ U, R.min - 1 ≤ U → U ≤ R.max → -K ≤ U → (∀ c ∈ [c1, c2, c3, c4], ¬ Vague c → c.key R ≤ U) →
        a * c ≤ U ∧ a * d ≤ U ∧ b * c ≤ U ∧ b * d ≤ U) := by
    intro v1 K hK
    have vtl : ¬ Vague t.l := fun h => v1 (g1 (Or.inl h))
    have vul : ¬ Vague u.l := fun h => v1 (g1 (Or.inr h))
    obtain ⟨a, ra, hax⟩ := rep_lower (K := K) xl htl vtl
    obtain ⟨b, rb, hbx⟩ := rep_upper (K := K) xu htu vtu
    obtain ⟨c, rc, hcy⟩ := rep_lower (K := K) yl hul vul
    obtain ⟨d, rd, hdy⟩ := rep_upper (K := K) yu huu vuu
    obtain ⟨_, q1, _, v1, l1, u1⟩ := crMul_rep hR hK ptl pul ra rc
    obtain ⟨_, q2, _, v2, l2, u2⟩ := crMul_rep hR hK ptl puu ra rd
    obtain ⟨_, q3, _, v3, l3, u3⟩ := crMul_rep hR hK ptu pul rb rc
    obtain ⟨_, q4, _, v4, l4, u4⟩ := crMul_rep hR hK ptu puu rb rd
    obtain rfl : _ = c1 := by simpa [q1] using e1
    obtain rfl : _ = c2 := by simpa [q2] using e2
    obtain rfl : _ = c3 := by simpa [q3] using e3
    obtain rfl : _ = c4 := by simpa [q4] using e4
    refine ⟨a, b, c, d, hax, hbx, hcy, hdy, ?_, ?_⟩
    · intro L h1 h2 h3 h
      exact ⟨l1 L h1 h2 h3 (h _ (by simp) v1), l2 L h1 h2 h3 (h _ (by simp) v2),
        l3 L h1 h2 h3 (h _ (by simp) v3), l4 L h1 h2 h3 (h _ (by simp) v4)⟩
    · intro U h1 h2 h3 h
      exact ⟨u1 U h1 h2 h3 (h _ (by simp) v1), u2 U h1 h2 h3 (h _ (by simp) v2),
        u3 U h1 h2 h3 (h _ (by simp) v3), u4 U h1 h2 h3 (h _ (by simp) v4)⟩
  obtain ⟨m, M, e, pm, pM, hl, hu⟩ := minmax_bounds (R := R) (z := x * y) hp
    (by
      intro v1 L h1 h2 h
      obtain ⟨a, b, c, d, q1, q2, q3, q4, ql, _⟩ := main v1 (R.max + 1) (by omega)
      obtain ⟨z1, z2, z3, z4⟩ := ql L h1 h2 h2 h
      exact corner_lower q1 q2 q3 q4 z1 z2 z3 z4)
    (by
      intro v1 U h1 h2 h
      obtain ⟨a, b, c, d, q1, q2, q3, q4, _, qu⟩ := main v1 (1 - R.min) (by omega)
      obtain ⟨z1, z2, z3, z4⟩ := qu U h1 h2 (by omega) h
      exact corner_upper q1 q2 q3 q4 z1 z2 z3 z4)
  rw [e]
  exact ⟨⟨m, M⟩, rfl, pm, pM, hl, hu⟩

/-! ### sum, difference, quotient -/

omit [Arch] in
theorem lowerOk_exactOr {R : ITy} {v z : Int} (h : v ≤ z) : LowerOk R (exactOr R.min R.max v) z := by
  unfold exactOr; split_ifs
  · show _ < _; omega
  · trivial
  · exact h
omit [Arch] in
theorem upperOk_exactOr {R : ITy} {v z : Int} (h : z ≤ v) : UpperOk R (exactOr R.min R.max v) z := by
  unfold exactOr; split_ifs
  · trivial
  · show _ < _; omega
  · exact h

omit [Arch] in
theorem proper_range (R : ITy) : Proper R (.err .range_error) := by show _ ≠ _; decide
omit [Arch] in
theorem proper_neg (R : ITy) : Proper R (.err .negative_overflow_error) := by show _ ≠ _; decide
omit [Arch] in
theorem proper_pos (R : ITy) : Proper R (.err .positive_overflow_error) := by show _ ≠ _; decide

/-- `+` of lower ends -/
theorem crAdd_lower {R : ITy} {c d : CR} {x y : Int} (pc : Proper R c) (pd : Proper R d)
    (hc : c ≠ .err .positive_overflow_error) (hd : d ≠ .err .positive_overflow_error)
    (h1 : LowerOk R c x) (h2 : LowerOk R d y) :
    ∃ e, crAdd R c d = .ret e ∧ Proper R e ∧ LowerOk R e (x + y) := by
  rcases c.cases4 with ⟨a, rfl⟩ | rfl | rfl | hv
  · rcases d.cases4 with ⟨b, rfl⟩ | rfl | rfl | hv
    · have h1 : a ≤ x := h1; have h2 : b ≤ y := h2
      exact ⟨_, crAdd_ok pc pd, proper_exactOr _, lowerOk_exactOr (by omega)⟩
    · exact ⟨_, rfl, proper_neg R, trivial⟩
    · exact absurd rfl hd
    · exact ⟨_, crAdd_vague (Or.inr hv), proper_range R, trivial⟩
  · rcases d.cases4 with ⟨b, rfl⟩ | rfl | rfl | hv
    · exact ⟨_, rfl, proper_neg R, trivial⟩
    · exact ⟨_, rfl, proper_neg R, trivial⟩
    · exact absurd rfl hd
    · exact ⟨_, crAdd_vague (Or.inr hv), proper_range R, trivial⟩
  · exact absurd rfl hc
  · exact ⟨_, crAdd_vague (Or.inl hv), proper_range R, trivial⟩

/-- `+` of upper ends -/
theorem crAdd_upper {R : ITy} {c d : CR} {x y : Int} (pc : Proper R c) (pd : Proper R d)
    (hc : c ≠ .err .negative_overflow_error) (hd : d ≠ .err .negative_overflow_error)
    (h1 : UpperOk R c x) (h2 : UpperOk R d y) :
    ∃ e, crAdd R c d = .ret e ∧ Proper R e ∧ UpperOk R e (x + y) := by
  rcases c.cases4 with ⟨a, rfl⟩ | rfl | rfl | hv
  · rcases d.cases4 with ⟨b, rfl⟩ | rfl | rfl | hv
    · have h1 : x ≤ a := h1; have h2 : y ≤ b := h2
      exact ⟨_, crAdd_ok pc pd, proper_exactOr _, upperOk_exactOr (by omega)⟩
    · exact absurd rfl hd
    · exact ⟨_, rfl, proper_pos R, trivial⟩
    · exact ⟨_, crAdd_vague (Or.inr hv), proper_range R, trivial⟩
  · exact absurd rfl hc
  · rcases d.cases4 with ⟨b, rfl⟩ | rfl | rfl | hv
    · exact ⟨_, rfl, proper_pos R, trivial⟩
    · exact absurd rfl hd
    · exact ⟨_, rfl, proper_pos R, trivial⟩
    · exact ⟨_, crAdd_vague (Or.inr hv), proper_range R, trivial⟩
  · exact ⟨_, crAdd_vague (Or.inl hv), proper_range R, trivial⟩

/-- lower end of `-` -/
theorem crSub_lower {R : ITy} {c d : CR} {x y : Int} (pc : Proper R c) (pd : Proper R d)
    (hc : c ≠ .err .positive_overflow_error) (hd : d ≠ .err .negative_overflow_error)
    (h1 : LowerOk R c x) (h2 : UpperOk R d y) :
    ∃ e, crSub R c d = .ret e ∧ Proper R e ∧ LowerOk R e (x - y) := by
  rcases c.cases4 with ⟨a, rfl⟩ | rfl | rfl | hv
  · rcases d.cases4 with ⟨b, rfl⟩ | rfl | rfl | hv
    · have h1 : a ≤ x := h1; have h2 : y ≤ b := h2
      exact ⟨_, crSub_ok pc pd, proper_exactOr _, lowerOk_exactOr (by omega)⟩
    · exact absurd rfl hd
    · exact ⟨_, rfl, proper_neg R, trivial⟩
    · exact ⟨_, crSub_vague (Or.inr hv), proper_range R, trivial⟩
  · rcases d.cases4 with ⟨b, rfl⟩ | rfl | rfl | hv
    · exact ⟨_, rfl, proper_neg R, trivial⟩
    · exact absurd rfl hd
    · exact ⟨_, rfl, proper_neg R, trivial⟩
    · exact ⟨_, crSub_vague (Or.inr hv), proper_range R, trivial⟩
  · exact absurd rfl hc
  · exact ⟨_, crSub_vague (Or.inl hv), proper_range R, trivial⟩

/-- upper end of `-` -/
theorem crSub_upper {R : ITy} {c d : CR} {x y : Int} (pc : Proper R c) (pd : Proper R d)
    (hc : c ≠ .err .negative_overflow_error) (hd : d ≠ .err .positive_overflow_error)
    (h1 : UpperOk R c x) (h2 : LowerOk R d y) :
    ∃ e, crSub R c d = .ret e ∧ Proper R e ∧ UpperOk R e (x - y) := by
  rcases c.cases4 with ⟨a, rfl⟩ | rfl | rfl | hv
  · rcases d.cases4 with ⟨b, rfl⟩ | rfl | rfl | hv
    · have h1 : x ≤ a := h1; have h2 : b ≤ y := h2
      exact ⟨_, crSub_ok pc pd, proper_exactOr _, upperOk_exactOr (by omega)⟩
    · exact ⟨_, rfl, proper_pos R, trivial⟩
    · exact absurd rfl hd
    · exact ⟨_, crSub_vague (Or.inr hv), proper_range R, trivial⟩
  · exact absurd rfl hc
  · rcases d.cases4 with ⟨b, rfl⟩ | rfl | rfl | hv
    · exact ⟨_, rfl, proper_pos R, trivial⟩
    · exact ⟨_, rfl, proper_pos R, trivial⟩
    · exact absurd rfl hd
    · exact ⟨_, crSub_vague (Or.inr hv), proper_range R, trivial⟩
  · exact ⟨_, crSub_vague (Or.inl hv), proper_range R, trivial⟩

/-! truncated division is monotone -/

omit [Arch] in
theorem tdiv_mono_num {a x y : Int} (hy : 0 < y) (h : a ≤ x) : a.tdiv y ≤ x.tdiv y := by
  rcases Int.le_total 0 a with ha | ha
  · rw [Int.tdiv_eq_ediv_of_nonneg ha, Int.tdiv_eq_ediv_of_nonneg (by omega)]
    exact Int.ediv_le_ediv hy h
  · rcases Int.le_total 0 x with hx | hx
    · have h1 : 0 ≤ (-a).tdiv y := Int.tdiv_nonneg (by omega) (by omega)
      rw [Int.neg_tdiv] at h1
      have h2 : 0 ≤ x.tdiv y := Int.tdiv_nonneg hx (by omega)
      omega
    · have e1 : a.tdiv y = -((-a) / y) := by
        rw [← Int.tdiv_eq_ediv_of_nonneg (by omega), Int.neg_tdiv, Int.neg_neg]
      have e2 : x.tdiv y = -((-x) / y) := by
        rw [← Int.tdiv_eq_ediv_of_nonneg (by omega), Int.neg_tdiv, Int.neg_neg]
      have := Int.ediv_le_ediv hy (show -x ≤ -a by omega)
      omega

omit [Arch] in
theorem tdiv_anti_den {a c y : Int} (ha : 0 ≤ a) (hc : 0 < c) (h : c ≤ y) : a.tdiv y ≤ a.tdiv c := by
  rw [Int.tdiv_eq_ediv_of_nonneg ha, Int.tdiv_eq_ediv_of_nonneg ha]
  have h1 : 0 ≤ a / y := Int.ediv_nonneg ha (by omega)
  have h2 : y * (a / y) ≤ a := Int.mul_ediv_self_le (by omega)
  rw [Int.le_ediv_iff_mul_le hc]
  nlinarith

omit [Arch] in
theorem tdiv_mono_den {a c y : Int} (ha : a ≤ 0) (hc : 0 < c) (h : c ≤ y) : a.tdiv c ≤ a.tdiv y := by
  have := tdiv_anti_den (a := -a) (by omega) hc h
  rw [Int.neg_tdiv, Int.neg_tdiv] at this; omega

omit [Arch] in
/-- lower bound of `x / y` for positive `y` -/
theorem tdiv_lo_pos {a c x y L : Int} (hc : 0 < c) (h1 : a ≤ x) (h2 : c ≤ y) (g1 : L ≤ a.tdiv c)
    (g2 : L ≤ 0 ∨ ∃ d, y ≤ d ∧ L ≤ a.tdiv d) : L ≤ x.tdiv y := by
  have hy : 0 < y := by omega
  have m := tdiv_mono_num hy h1
  rcases Int.le_total 0 a with ha | ha
  · have := Int.tdiv_nonneg ha (show 0 ≤ y by omega)
    rcases g2 with g2 | ⟨d, hd, g2⟩
    · omega
    · have := tdiv_anti_den ha hy hd
      omega
  · have := tdiv_mono_den ha hc h2
    omega

omit [Arch] in
/-- upper bound of `x / y` for positive `y` -/
theorem tdiv_hi_pos {b c x y U : Int} (hc : 0 < c) (h1 : x ≤ b) (h2 : c ≤ y) (g1 : b.tdiv c ≤ U)
    (g2 : 0 ≤ U ∨ ∃ d, y ≤ d ∧ b.tdiv d ≤ U) : x.tdiv y ≤ U := by
  have := tdiv_lo_pos (a := -b) (c := c) (x := -x) (y := y) (L := -U) hc (by omega) h2
    (by rw [Int.neg_tdiv]; omega)
    (by
      rcases g2 with g2 | ⟨d, hd, g2⟩
      · left; omega
      · right; exact ⟨d, hd, by rw [Int.neg_tdiv]; omega⟩)
  rw [Int.neg_tdiv] at this; omega

omit [Arch] in
/-- lower bound of `x / y` for negative `y` -/
theorem tdiv_lo_neg {b d x y L : Int} (hd : d < 0) (h1 : x ≤ b) (h2 : y ≤ d) (g1 : L ≤ b.tdiv d)
    (g2 : L ≤ 0 ∨ ∃ c, c ≤ y ∧ L ≤ b.tdiv c) : L ≤ x.tdiv y := by
  have := tdiv_lo_pos (a := -b) (c := -d) (x := -x) (y := -y) (L := L) (by omega) (by omega) (by omega)
    (by rw [Int.neg_tdiv_neg]; omega)
    (by
      rcases g2 with g2 | ⟨c, hc, g2⟩
      · left; omega
      · right; exact ⟨-c, by omega, by rw [Int.neg_tdiv_neg]; omega⟩)
  rwa [Int.neg_tdiv_neg] at this

omit [Arch] in
/-- upper bound of `x / y` for negative `y` -/
theorem tdiv_hi_neg {a d x y U : Int} (hd : d < 0) (h1 : a ≤ x) (h2 : y ≤ d) (g1 : a.tdiv d ≤ U)
    (g2 : 0 ≤ U ∨ ∃ c, c ≤ y ∧ a.tdiv c ≤ U) : x.tdiv y ≤ U := by
  have := tdiv_hi_pos (b := -a) (c := -d) (x := -x) (y := -y) (U := U) (by omega) (by omega) (by omega)
    (by rw [Int.neg_tdiv_neg]; omega)
    (by
      rcases g2 with g2 | ⟨c, hc, g2⟩
      · left; omega
      · right; exact ⟨-c, by omega, by rw [Int.neg_tdiv_neg]; omega⟩)
  rwa [Int.neg_tdiv_neg] at this

/-- the quotient of two non-zero-denominator values -/
theorem crDiv_key {R : ITy} {a b : Int} (ha : R.In a) (hb : R.In b) (h0 : b ≠ 0) :
    ∃ e, crDiv R (.ok a) (.ok b) = .ret e ∧ Proper R e ∧ ¬ Vague e ∧
      (∀ L, L ≤ R.max + 1 → L ≤ e.key R → L ≤ a.tdiv b) ∧ (∀ U, U ≤ R.max → e.key R ≤ U → a.tdiv b ≤ U) ∧
      (¬ R.max < a.tdiv b → e = .ok (a.tdiv b)) := by
  refine ⟨_, crDiv_ok ha hb h0, ?_⟩
  split_ifs with h
  · refine ⟨proper_pos R, not_vague_pos, fun L h1 _ => by omega, fun U h1 h2 => ?_, fun h' => absurd h h'⟩
    simp only [CR.key] at h2; omega
  · refine ⟨?_, not_vague_ok _, fun L _ h1 => h1, fun U _ h1 => h1, fun _ => rfl⟩
    refine tdiv_in ha hb h0 ?_
    rintro ⟨hs, rfl, rfl⟩
    have e := ITy.min_eq R
    rw [hs] at e; simp at e
    apply h; rw [Int.tdiv_neg, Int.tdiv_one]; omega

theorem crDiv_neg_ok {R : ITy} {b : Int} (hb : R.In b) (_h0 : b ≠ 0) :
    crDiv R (.err .negative_overflow_error) (.ok b) =
      .ret (.err (if b < 0 then .positive_overflow_error else .negative_overflow_error)) := by
  unfold crDiv; rw [prodFlag_ok hb]
  split_ifs <;> rfl
theorem crDiv_pos_ok {R : ITy} {b : Int} (hb : R.In b) (_h0 : b ≠ 0) :
    crDiv R (.err .positive_overflow_error) (.ok b) =
      .ret (.err (if b < 0 then .negative_overflow_error else .positive_overflow_error)) := by
  unfold crDiv; rw [prodFlag_ok hb]
  split_ifs <;> rfl

theorem crDiv_ex {R : ITy} {c d : CR} (pc : Proper R c) (pd : Proper R d) (h0 : d ≠ .ok 0) :
    ∃ e, crDiv R c d = .ret e ∧ Proper R e ∧ ((Vague c ∨ Vague d) → Vague e) ∧
      (c = .err .negative_overflow_error → d = .err .negative_overflow_error → Vague e) := by
  have vr : Vague (.err .range_error) := ⟨_, rfl, by decide, by decide⟩
  rcases d.cases4 with ⟨b, rfl⟩ | rfl | rfl | hv
  · have hb : b ≠ 0 := fun h => h0 (by rw [h])
    rcases c.cases4 with ⟨a, rfl⟩ | rfl | rfl | hv
    · obtain ⟨e, h1, h2, h3, _⟩ := crDiv_key pc pd hb
      refine ⟨e, h1, h2, fun h => ?_, fun h => by simp at h⟩
      rcases h with h | h <;> exact absurd h (not_vague_ok _)
    · refine ⟨_, crDiv_neg_ok pd hb, ?_, ?_, fun _ h => by simp at h⟩
      · split_ifs
        · exact proper_pos R
        · exact proper_neg R
      · rintro (h | h)
        · exact absurd h not_vague_neg
        · exact absurd h (not_vague_ok _)
    · refine ⟨_, crDiv_pos_ok pd hb, ?_, ?_, fun _ h => by simp at h⟩
      · split_ifs
        · exact proper_neg R
        · exact proper_pos R
      · rintro (h | h)
        · exact absurd h not_vague_pos
        · exact absurd h (not_vague_ok _)
    · exact ⟨_, crDiv_vague (Or.inl hv), proper_range R, fun _ => vr, fun _ h => by simp at h⟩
  · rcases c.cases4 with ⟨a, rfl⟩ | rfl | rfl | hv
    · refine ⟨_, (crDiv_ok_marker pc).1, R.in_zero, ?_, fun h => by simp at h⟩
      rintro (h | h)
      · exact absurd h (not_vague_ok _)
      · exact absurd h not_vague_neg
    · exact ⟨_, rfl, proper_range R, fun _ => vr, fun _ _ => vr⟩
    · refine ⟨_, rfl, proper_neg R, ?_, fun h => by simp at h⟩
      rintro (h | h)
      · exact absurd h not_vague_pos
      · exact absurd h not_vague_neg
    · exact ⟨_, crDiv_vague (Or.inl hv), proper_range R, fun _ => vr, fun _ _ => vr⟩
  · rcases c.cases4 with ⟨a, rfl⟩ | rfl | rfl | hv
    · refine ⟨_, (crDiv_ok_marker pc).2, R.in_zero, ?_, fun h => by simp at h⟩
      rintro (h | h)
      · exact absurd h (not_vague_ok _)
      · exact absurd h not_vague_pos
    · refine ⟨_, rfl, proper_neg R, ?_, fun _ h => by simp at h⟩
      rintro (h | h)
      · exact absurd h not_vague_neg
      · exact absurd h not_vague_pos
    · exact ⟨_, rfl, proper_range R, fun _ => vr, fun h => by simp at h⟩
    · exact ⟨_, crDiv_vague (Or.inl hv), proper_range R, fun _ => vr, fun _ _ => vr⟩
  · exact ⟨_, crDiv_vague (Or.inr hv), proper_range R, fun _ => vr, fun _ _ => vr⟩

/-- what `excludes(0)` being true says about the ends -/
theorem excludes_zero {R : ITy} {u : Itv CR} (pl : Proper R u.l) (pu : Proper R u.u)
    (hl : u.l ≠ .err .positive_overflow_error) (hu : u.u ≠ .err .negative_overflow_error)
    (h : (u.excludesPt (crCmp R) (.ok 0)).toBool = true) :
    (∃ c, u.l = .ok c ∧ 0 < c) ∨ (∃ d, u.u = .ok d ∧ d < 0) := by
  have hz := R.min_nonpos; have hm := R.max_ge
  have key : (crLt R (.ok 0) u.l).toBool = true ∨ (crLt R u.u (.ok 0)).toBool = true := by
    change ((crLt R (.ok 0) u.l).or (crLt R u.u (.ok 0))).toBool = true at h
    revert h
    cases crLt R (.ok 0) u.l <;> cases crLt R u.u (.ok 0) <;> decide
  have p0 : Proper R (.ok 0) := R.in_zero
  rcases key with k | k
  · left
    by_cases v : Vague u.l
    · have := crLtB_vague (R := R) (a := .ok 0) (Or.inr v)
      unfold crLtB at this; rw [this] at k; cases k
    · have := crLtB_key p0 pl (not_vague_ok _) v
      unfold crLtB at this; rw [this] at k
      have k := of_decide_eq_true k
      rcases hc : u.l.cases4 with ⟨c, e⟩ | e | e | e
      · rw [e] at k; exact ⟨c, e, k⟩
      · rw [e] at k; simp only [CR.key] at k; omega
      · exact absurd e hl
      · exact absurd e v
  · right
    by_cases v : Vague u.u
    · have := crLtB_vague (R := R) (b := .ok 0) (Or.inl v)
      unfold crLtB at this; rw [this] at k; cases k
    · have := crLtB_key pu p0 v (not_vague_ok _)
      unfold crLtB at this; rw [this] at k
      have k := of_decide_eq_true k
      rcases hc : u.u.cases4 with ⟨c, e⟩ | e | e | e
      · rw [e] at k; exact ⟨c, e, k⟩
      · exact absurd e hu
      · rw [e] at k; simp only [CR.key] at k; omega
      · exact absurd e v

theorem itvDiv_contains {R : ITy} {t u : Itv CR} {x y : Int}
    (ptl : Proper R t.l) (ptu : Proper R t.u) (pul : Proper R u.l) (puu : Proper R u.u)
    (htl : t.l ≠ .err .positive_overflow_error) (htu : t.u ≠ .err .negative_overflow_error) (vtu : ¬ Vague t.u)
    (hul : u.l ≠ .err .positive_overflow_error) (huu : u.u ≠ .err .negative_overflow_error) (vuu : ¬ Vague u.u)
    (h0 : (u.excludesPt (crCmp R) (.ok 0)).toBool = true)
    (xl : LowerOk R t.l x) (xu : UpperOk R t.u x) (yl : LowerOk R u.l y) (yu : UpperOk R u.u y) :
    ∃ i, itvDiv R t u = .ret i ∧ Proper R i.l ∧ Proper R i.u ∧
      LowerOk R i.l (x.tdiv y) ∧ UpperOk R i.u (x.tdiv y) := by
  have hz := R.min_nonpos; have hm := R.max_ge
  have ez := excludes_zero pul puu hul huu h0
  have nl : u.l ≠ .ok 0 := by
    intro h; rw [h] at yl ez
    rcases ez with ⟨c, e, k⟩ | ⟨d, e, k⟩
    · obtain rfl : (0 : Int) = c := by simpa using e
      omega
    · rw [e] at yu; have yu : y ≤ d := yu; have yl : 0 ≤ y := yl; omega
  have nu : u.u ≠ .ok 0 := by
    intro h; rw [h] at yu ez
    rcases ez with ⟨c, e, k⟩ | ⟨d, e, k⟩
    · rw [e] at yl; have yu : y ≤ 0 := yu; have yl : c ≤ y := yl; omega
    · obtain rfl : (0 : Int) = d := by simpa using e
      omega
  unfold itvDiv corners minmax4 assertThat
  rw [h0]
  obtain ⟨c1, e1, p1, g1, g1'⟩ := crDiv_ex ptl pul nl
  obtain ⟨c2, e2, p2, _⟩ := crDiv_ex ptl puu nu
  obtain ⟨c3, e3, p3, _⟩ := crDiv_ex ptu pul nl
  obtain ⟨c4, e4, p4, _⟩ := crDiv_ex ptu puu nu
  simp only [e1, e2, e3, e4, Out.ret_bind, if_true]
  have hp : ∀ c ∈ [c1, c2, c3, c4], Proper R c := by
    intro c hc; simp at hc; rcases hc with rfl | rfl | rfl | rfl <;> assumption
  have main : ¬ Vague c1 →
      (∀ L, R.min ≤ L → L ≤ R.max + 1 → (∀ c ∈ [c1, c2, c3, c4], ¬ Vague c → L ≤ c.key R) → L ≤ x.tdiv y) ∧
      (∀ U, R.min - 1 ≤ U → U ≤ R.max → (∀ c ∈ [c1, c2, c3, c4], ¬ Vague c → c.key R ≤ U) → x.tdiv y ≤ U) := by
    intro v1
    have vtl : ¬ Vague t.l := fun h => v1 (g1 (Or.inl h))
    have vul : ¬ Vague u.l := fun h => v1 (g1 (Or.inr h))
    rcases ez with ⟨c, ec, hc⟩ | ⟨d, ed, hd⟩
    · rw [ec] at e1 e3 yl pul
      have yl : c ≤ y := yl
      constructor
      · intro L h1 h2 h
        rcases t.l.cases4 with ⟨a, ea⟩ | ea | ea | ea
        · rw [ea] at e1 e2 xl ptl
          obtain ⟨_, q1, _, v1', l1, _⟩ := crDiv_key ptl pul (by omega)
          obtain rfl : _ = c1 := by simpa [q1] using e1
          refine tdiv_lo_pos hc xl yl (l1 L h2 (h _ (by simp) v1')) ?_
          rcases u.u.cases4 with ⟨d, eu⟩ | eu | eu | eu
          · rw [eu] at e2 yu puu
            have yu : y ≤ d := yu
            obtain ⟨_, q2, _, v2', l2, _⟩ := crDiv_key ptl puu (by omega)
            obtain rfl : _ = c2 := by simpa [q2] using e2
            exact Or.inr ⟨d, yu, l2 L h2 (h _ (by simp) v2')⟩
          · exact absurd eu huu
          · rw [eu, (crDiv_ok_marker ptl).2] at e2
            obtain rfl : CR.ok 0 = c2 := by simpa using e2
            exact Or.inl (h _ (by simp) (not_vague_ok _))
          · exact absurd eu vuu
        · rw [ea, crDiv_neg_ok pul (by omega), if_neg (by omega)] at e1
          obtain rfl : _ = c1 := by simpa using e1
          have := h _ (by simp) not_vague_neg
          simp only [CR.key] at this; omega
        · exact absurd ea htl
        · exact absurd ea vtl
      · intro U h1 h2 h
        rcases t.u.cases4 with ⟨b, ea⟩ | ea | ea | ea
        · rw [ea] at e3 e4 xu ptu
          obtain ⟨_, q1, _, v1', _, l1, _⟩ := crDiv_key ptu pul (by omega)
          obtain rfl : _ = c3 := by simpa [q1] using e3
          refine tdiv_hi_pos hc xu yl (l1 U h2 (h _ (by simp) v1')) ?_
          rcases u.u.cases4 with ⟨d, eu⟩ | eu | eu | eu
          · rw [eu] at e4 yu puu
            have yu : y ≤ d := yu
            obtain ⟨_, q2, _, v2', _, l2, _⟩ := crDiv_key ptu puu (by omega)
            obtain rfl : _ = c4 := by simpa [q2] using e4
            exact Or.inr ⟨d, yu, l2 U h2 (h _ (by simp) v2')⟩
          · exact absurd eu huu
          · rw [eu, (crDiv_ok_marker ptu).2] at e4
            obtain rfl : CR.ok 0 = c4 := by simpa using e4
            exact Or.inl (h _ (by simp) (not_vague_ok _))
          · exact absurd eu vuu
        · exact absurd ea htu
        · rw [ea, crDiv_pos_ok pul (by omega), if_neg (by omega)] at e3
          obtain rfl : _ = c3 := by simpa using e3
          have := h _ (by simp) not_vague_pos
          simp only [CR.key] at this; omega
        · exact absurd ea vtu
    · rw [ed] at e2 e4 yu puu
      have yu : y ≤ d := yu
      constructor
      · intro L h1 h2 h
        rcases t.u.cases4 with ⟨b, ea⟩ | ea | ea | ea
        · rw [ea] at e3 e4 xu ptu
          obtain ⟨_, q1, _, v1', l1, _⟩ := crDiv_key ptu puu (by omega)
          obtain rfl : _ = c4 := by simpa [q1] using e4
          refine tdiv_lo_neg hd xu yu (l1 L h2 (h _ (by simp) v1')) ?_
          rcases u.l.cases4 with ⟨c, eu⟩ | eu | eu | eu
          · rw [eu] at e3 yl pul
            have yl : c ≤ y := yl
            obtain ⟨_, q2, _, v2', l2, _⟩ := crDiv_key ptu pul (by omega)
            obtain rfl : _ = c3 := by simpa [q2] using e3
            exact Or.inr ⟨c, yl, l2 L h2 (h _ (by simp) v2')⟩
          · rw [eu, (crDiv_ok_marker ptu).1] at e3
            obtain rfl : CR.ok 0 = c3 := by simpa using e3
            exact Or.inl (h _ (by simp) (not_vague_ok _))
          · exact absurd eu hul
          · exact absurd eu vul
        · exact absurd ea htu
        · rw [ea, crDiv_pos_ok puu (by omega), if_pos hd] at e4
          obtain rfl : _ = c4 := by simpa using e4
          have := h _ (by simp) not_vague_neg
          simp only [CR.key] at this; omega
        · exact absurd ea vtu
      · intro U h1 h2 h
        rcases t.l.cases4 with ⟨a, ea⟩ | ea | ea | ea
        · rw [ea] at e1 e2 xl ptl
          obtain ⟨_, q1, _, v1', _, l1, _⟩ := crDiv_key ptl puu (by omega)
          obtain rfl : _ = c2 := by simpa [q1] using e2
          refine tdiv_hi_neg hd xl yu (l1 U h2 (h _ (by simp) v1')) ?_
          rcases u.l.cases4 with ⟨c, eu⟩ | eu | eu | eu
          · rw [eu] at e1 yl pul
            have yl : c ≤ y := yl
            obtain ⟨_, q2, _, v2', _, l2, _⟩ := crDiv_key ptl pul (by omega)
            obtain rfl : _ = c1 := by simpa [q2] using e1
            exact Or.inr ⟨c, yl, l2 U h2 (h _ (by simp) v2')⟩
          · rw [eu, (crDiv_ok_marker ptl).1] at e1
            obtain rfl : CR.ok 0 = c1 := by simpa using e1
            exact Or.inl (h _ (by simp) (not_vague_ok _))
          · exact absurd eu hul
          · exact absurd eu vul
        · rw [ea, crDiv_neg_ok puu (by omega), if_pos hd] at e2
          obtain rfl : _ = c2 := by simpa using e2
          have := h _ (by simp) not_vague_pos
          simp only [CR.key] at this; omega
        · exact absurd ea htl
        · exact absurd ea vtl
  obtain ⟨m, M, e, pm, pM, hl, hu⟩ := minmax_bounds (R := R) (z := x.tdiv y) hp
    (fun v => (main v).1) (fun v => (main v).2)
  rw [e]
  exact ⟨⟨m, M⟩, rfl, pm, pM, hl, hu⟩

theorem itvAdd_contains {R : ITy} {t u : Itv CR} {x y : Int}
    (ptl : Proper R t.l) (ptu : Proper R t.u) (pul : Proper R u.l) (puu : Proper R u.u)
    (htl : t.l ≠ .err .positive_overflow_error) (htu : t.u ≠ .err .negative_overflow_error)
    (hul : u.l ≠ .err .positive_overflow_error) (huu : u.u ≠ .err .negative_overflow_error)
    (xl : LowerOk R t.l x) (xu : UpperOk R t.u x) (yl : LowerOk R u.l y) (yu : UpperOk R u.u y) :
    ∃ i, itvAdd R t u = .ret i ∧ Proper R i.l ∧ Proper R i.u ∧ LowerOk R i.l (x + y) ∧ UpperOk R i.u (x + y) := by
  obtain ⟨a, e1, p1, h1⟩ := crAdd_lower ptl pul htl hul xl yl
  obtain ⟨b, e2, p2, h2⟩ := crAdd_upper ptu puu htu huu xu yu
  unfold itvAdd; simp only [e1, e2, Out.ret_bind]
  exact ⟨_, rfl, p1, p2, h1, h2⟩

theorem itvSub_contains {R : ITy} {t u : Itv CR} {x y : Int}
    (ptl : Proper R t.l) (ptu : Proper R t.u) (pul : Proper R u.l) (puu : Proper R u.u)
    (htl : t.l ≠ .err .positive_overflow_error) (htu : t.u ≠ .err .negative_overflow_error)
    (hul : u.l ≠ .err .positive_overflow_error) (huu : u.u ≠ .err .negative_overflow_error)
    (xl : LowerOk R t.l x) (xu : UpperOk R t.u x) (yl : LowerOk R u.l y) (yu : UpperOk R u.u y) :
    ∃ i, itvSub R t u = .ret i ∧ Proper R i.l ∧ Proper R i.u ∧ LowerOk R i.l (x - y) ∧ UpperOk R i.u (x - y) := by
  obtain ⟨a, e1, p1, h1⟩ := crSub_lower ptl puu htl huu xl yu
  obtain ⟨b, e2, p2, h2⟩ := crSub_upper ptu pul htu hul xu yl
  unfold itvSub; simp only [e1, e2, Out.ret_bind]
  exact ⟨_, rfl, p1, p2, h1, h2⟩

end
end Verif
