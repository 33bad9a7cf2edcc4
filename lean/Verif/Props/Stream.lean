import Verif.SafeSpec
import Verif.StreamSpec
import Verif.Proofs.Stream

/-!
Properties C37 (stream input) and C51 (stream output and round trip).
-/

namespace Verif.Props
open Spec

theorem number_scan {b rest : List Char} {neg : Bool} {n : Int} (h : NumberAt b neg n rest) :
    ∃ ds, b.dropWhile isWs ≠ [] ∧ scan (b.dropWhile isWs) = (neg, ds, rest) ∧ ds ≠ [] ∧
      n = (if neg then -(digitsVal ds : Int) else digitsVal ds) ∧
      ((b.dropWhile isWs).head? = some '-' ↔ neg = true) := by
  obtain ⟨ws, sg, ds, e, hw, hd, hdig, hr, h⟩ := h
  have hne : ∃ d ds', ds = d :: ds' := by cases ds with
    | nil => exact absurd rfl hd
    | cons d ds' => exact ⟨d, ds', rfl⟩
  obtain ⟨d, ds', eds⟩ := hne
  have hdd := dig_not (hdig d (by rw [eds]; simp))
  have hx : b.dropWhile isWs = sg ++ (ds ++ rest) := by
    rw [e]; apply dropWhile_ws hw
    intro c hc
    rcases h with ⟨_, rfl, _⟩ | ⟨_, rfl | rfl, _⟩
    · simp at hc; subst hc; decide
    · rw [eds] at hc; simp at hc; subst hc; exact hdd.1
    · simp at hc; subst hc; decide
  rw [hx]
  refine ⟨ds, ?_, ?_, hd, ?_, ?_⟩
  · rw [eds]; simp
  · rcases h with ⟨rfl, rfl, _⟩ | ⟨rfl, rfl | rfl, _⟩
    · exact scan_minus ds rest hdig hr
    · exact scan_plain ds rest hd hdig hr
    · exact scan_plus ds rest hdig hr
  · rcases h with ⟨rfl, _, h⟩ | ⟨rfl, _, h⟩ <;> simpa using h
  · rcases h with ⟨rfl, rfl, _⟩ | ⟨rfl, rfl | rfl, _⟩
    · simp
    · rw [eds]; simp; exact hdd.2.1
    · simp

theorem scan_number {b ds rest : List Char} {neg : Bool} (h : scan (b.dropWhile isWs) = (neg, ds, rest)) (hd : ds ≠ []) :
    NumberAt b neg (if neg then -(digitsVal ds : Int) else digitsVal ds) rest := by
  obtain ⟨ws, e, hw, _⟩ := dropWhile_split (q := isWs) b
  obtain ⟨h1, h2, h3⟩ := scan_found (b.dropWhile isWs)
  rw [h] at h1 h2 h3
  rcases h3 with ⟨rfl, h3⟩ | ⟨rfl, h3 | h3⟩
  · exact ⟨ws, ['-'], ds, by rw [← List.singleton_append] at h3; rw [← h3]; exact e, hw, hd, h1, h2, Or.inl ⟨rfl, rfl, rfl⟩⟩
  · exact ⟨ws, ['+'], ds, by rw [← List.singleton_append] at h3; rw [← h3]; exact e, hw, hd, h1, h2,
      Or.inr ⟨rfl, Or.inr rfl, rfl⟩⟩
  · exact ⟨ws, [], ds, by rw [List.nil_append, ← h3]; exact e, hw, hd, h1, h2, Or.inr ⟨rfl, Or.inl rfl, rfl⟩⟩

private theorem stage3_good {V : ITy} {neg : Bool} {n : Nat} {v : Int} (h : stage3 V neg n = (v, false))
    (hn : V.signed = false → neg = false) : v = (if neg then -(n : Int) else n) ∧ V.In v := by
  unfold stage3 at h
  rcases hs : V.signed with _ | _
  · have := hn hs; subst this
    rw [hs] at h
    simp only [Bool.false_eq_true, if_false] at h ⊢
    split at h
    · simp at h
    · rename_i hm
      have hi : V.In n := ⟨by rw [ITy.min_unsigned hs]; omega, by omega⟩
      rw [conv_of_in hi] at h
      simp at h; subst h; exact ⟨rfl, hi⟩
  · rw [hs] at h
    simp only [if_true] at h
    generalize (if neg = true then -(n : Int) else n) = w at h ⊢
    by_cases h1 : w < V.min
    · rw [if_pos h1] at h; cases h
    · by_cases h2 : V.max < w
      · rw [if_neg h1, if_pos h2] at h; cases h
      · rw [if_neg h1, if_neg h2] at h; cases h; exact ⟨rfl, by omega, by omega⟩

private theorem stage3_in (V : ITy) (neg : Bool) (n : Nat) : V.In (stage3 V neg n).1 := by
  unfold stage3
  have := V.min_le_max
  rcases hs : V.signed with _ | _
  · simp only [Bool.false_eq_true, if_false]
    split
    · exact V.in_max
    · exact conv_in _ _
  · simp only [if_true]
    generalize (if neg = true then -(n : Int) else n) = w
    by_cases h1 : w < V.min
    · rw [if_pos h1]; exact V.in_min
    · by_cases h2 : V.max < w
      · rw [if_neg h1, if_pos h2]; exact V.in_max
      · rw [if_neg h1, if_neg h2]; exact ⟨by show V.min ≤ w; omega, by show w ≤ V.max; omega⟩

private theorem stage3_of {V : ITy} {neg : Bool} {n : Nat} (h : V.In (if neg then -(n : Int) else n))
    (hn : V.signed = false → neg = false) : stage3 V neg n = ((if neg then -(n : Int) else n), false) := by
  unfold stage3
  rcases hs : V.signed with _ | _
  · have := hn hs; subst this
    simp only [Bool.false_eq_true, if_false] at h ⊢
    rw [if_neg (by have := h.2; omega), conv_of_in h]
  · simp only [if_true]
    have h1 := h.1; have h2 := h.2
    rw [if_neg (by omega), if_neg (by omega)]

/-- what an extraction that does not fail has read -/
theorem extract_good {α : Type} {V : ITy} {st : Int → α} {old : α} {s : IStream}
    (h : (s.extract V st old).2.fail = false) :
    s.eof = false ∧ s.fail = false ∧ ∃ neg n rest v, NumberAt s.buf neg n rest ∧ (s.extract V st old) = (st v, ⟨rest, rest.isEmpty, false⟩) ∧
      ((V.signed = false → neg = false) → v = n ∧ V.In v) ∧ ((s.buf.dropWhile isWs).head? = some '-' ↔ neg = true) := by
  unfold IStream.extract IStream.sentry at *
  by_cases hg : (s.eof || s.fail) = true
  · rw [if_pos hg] at h; simp at h
  · rw [if_neg hg] at h ⊢
    simp only [Bool.not_eq_true, Bool.or_eq_false_iff] at hg
    refine ⟨hg.1, hg.2, ?_⟩
    dsimp only at h ⊢
    by_cases hb : (s.buf.dropWhile isWs).isEmpty = true
    · rw [if_pos hb] at h; simp at h
    · rw [if_neg hb] at h ⊢
      dsimp only at h ⊢
      rw [if_pos rfl] at h ⊢
      rcases hsc : scan (s.buf.dropWhile isWs) with ⟨neg, ds, rest⟩
      rw [hsc] at h
      dsimp only at h ⊢
      by_cases hd : ds.isEmpty = true
      · rw [if_pos hd] at h; simp at h
      · rw [if_neg hd] at h ⊢
        rcases h3 : stage3 V neg (digitsVal ds) with ⟨v, bad⟩
        rw [h3] at h
        dsimp only at h ⊢
        subst h
        have hN := scan_number hsc (by simpa using hd)
        refine ⟨neg, _, rest, v, hN, rfl, fun hn => stage3_good h3 hn, ?_⟩
        obtain ⟨_, _, _, _, _, hh⟩ := number_scan hN
        exact hh

/-- extraction of a number -/
private theorem extract_number {α : Type} {V : ITy} {st : Int → α} {old : α} {s : IStream} {neg : Bool} {n : Int} {rest : List Char}
    (he : s.eof = false) (hf : s.fail = false) (hN : NumberAt s.buf neg n rest) (hi : V.In n)
    (hn : V.signed = false → neg = false) :
    s.extract V st old = (st n, ⟨rest, rest.isEmpty, false⟩) := by
  obtain ⟨ds, h1, h2, h3, rfl, _⟩ := number_scan hN
  unfold IStream.extract IStream.sentry
  rw [if_neg (by simp [he, hf])]
  dsimp only
  rw [if_neg (show ¬ (s.buf.dropWhile isWs).isEmpty = true by simpa using h1)]
  dsimp only
  rw [if_pos rfl, h2]
  dsimp only
  rw [if_neg (by simpa using h3), stage3_of hi hn]

theorem extract_in {V : ITy} {old : Int} {s : IStream} (h : V.In old) : V.In (s.extract V id old).1 := by
  unfold IStream.extract
  rcases s.sentry with ⟨s', ok⟩
  dsimp only
  rcases ok with _ | _
  · exact h
  · rw [if_pos rfl]
    rcases scan s'.buf with ⟨neg, ds, rest⟩
    dsimp only
    split
    · exact V.in_zero
    · have := stage3_in V neg (digitsVal ds)
      exact this

/-- the preparation of an input to an unsigned type -/
theorem prep_cases {T : Opd} (hs : T.base.signed = false) (s : IStream) :
    ((inputPrep T s).fail = true ∨ (inputPrep T s).eof = true) ∨
    (s.eof = false ∧ s.fail = false ∧ inputPrep T s = ⟨s.buf.dropWhile isWs, false, false⟩ ∧
      (s.buf.dropWhile isWs).head? ≠ some '-') := by
  unfold inputPrep
  rw [hs, if_neg (by simp)]
  unfold IStream.ws
  by_cases hg : (s.eof || s.fail) = true
  · rw [if_pos hg]; left; left
    unfold IStream.peek
    simp
  · rw [if_neg hg]
    simp only [Bool.not_eq_true, Bool.or_eq_false_iff] at hg
    dsimp only
    by_cases hb : (s.buf.dropWhile isWs).isEmpty = true
    · rw [if_pos hb]; left; right
      unfold IStream.peek; simp
    · rw [if_neg hb]
      rcases he : s.buf.dropWhile isWs with _ | ⟨c, r⟩
      · rw [he] at hb; simp at hb
      · unfold IStream.peek
        simp only [hg.1, hg.2, Bool.or_false, Bool.false_eq_true, if_false]
        by_cases hc : c = '-'
        · left; left; simp [hc]
        · right
          simp [hc]

/-- white space is skipped once -/
theorem dropWhile_idem (b : List Char) : (b.dropWhile isWs).dropWhile isWs = b.dropWhile isWs := by
  obtain ⟨_, _, _, h⟩ := dropWhile_split (q := isWs) b
  have := dropWhile_ws (ws := []) (r := b.dropWhile isWs) (by simp) h
  simpa using this

private theorem number_drop {b rest : List Char} {neg : Bool} {n : Int} :
    NumberAt (b.dropWhile isWs) neg n rest → NumberAt b neg n rest := by
  intro h
  obtain ⟨ds, h1, h2, h3, rfl, _⟩ := number_scan h
  rw [dropWhile_idem] at h2
  exact scan_number h2 h3

private theorem drop_number {b rest : List Char} {neg : Bool} {n : Int} :
    NumberAt b neg n rest → NumberAt (b.dropWhile isWs) neg n rest := by
  intro h
  obtain ⟨ds, h1, h2, h3, rfl, _⟩ := number_scan h
  rw [← dropWhile_idem] at h2
  exact scan_number h2 h3

section
variable [Arch]

private theorem ofBuiltin_wf {B : ITy} (h : B.Ok) : (Opd.ofBuiltin B).Wf :=
  ⟨h, B.in_min, B.in_max, B.min_le_max, fun _ => ⟨rfl, rfl⟩, fun _ h => by cases h⟩

theorem input_validate_cases {p : EP} (hp : p.ae = .throw) {T : Opd} (hT : T.Wf) {B : ITy} (hB : B.Ok) {x : Int} (hx : B.In x) :
    validate T.base T.lo T.hi p (Opd.ofBuiltin B) x = .fault .illFormed ∨
    (validate T.base T.lo T.hi p (Opd.ofBuiltin B) x = .ret x ∧ T.Has x) ∨
    ((∃ e, validate T.base T.lo T.hi p (Opd.ofBuiltin B) x = .thrown e) ∧ ¬ T.Has x) := by
  rw [validate_eq hT.2.1 hT.2.2.1 (ofBuiltin_wf hB) hx, hp]
  split
  · exact Or.inl rfl
  · right
    split
    · rename_i h
      have := inclStatic_sound hT.2.1 hT.2.2.1 h
      change T.lo ≤ B.min ∧ B.max ≤ T.hi at this
      have h1 := hx.1; have h2 := hx.2
      exact Or.inl ⟨rfl, by omega, by omega⟩
    · dsimp only
      split
      · rename_i h; exact Or.inl ⟨rfl, h⟩
      · rename_i h; exact Or.inr ⟨⟨_, rfl⟩, h⟩

theorem inputStatic_cases {p : EP} (hp : p.ae = .throw) {T : Opd} (hT : T.Wf) :
    inputStatic p T = .fault .illFormed ∨
    (inputStatic p T = .ret () ∧ ∀ x, tInt.In x → validate T.base T.lo T.hi p (Opd.ofBuiltin tInt) x ≠ .fault .illFormed) := by
  have hd : p.traps [.domain_error] = false := by
    unfold EP.traps; simp [EP.act, makeAction, hp]
  have key : ∀ B : ITy, B.Ok → validateStatic T.base T.lo T.hi p (Opd.ofBuiltin B) = .fault .illFormed ∨
      (validateStatic T.base T.lo T.hi p (Opd.ofBuiltin B) = .ret () ∧
        ∀ x, B.In x → validate T.base T.lo T.hi p (Opd.ofBuiltin B) x ≠ .fault .illFormed) := by
    intro B hB
    have hv : ∀ x, B.In x → (validateStatic T.base T.lo T.hi p (Opd.ofBuiltin B) = .ret () →
        validate T.base T.lo T.hi p (Opd.ofBuiltin B) x ≠ .fault .illFormed) := by
      intro x hx
      rw [validate_eq hT.2.1 hT.2.2.1 (ofBuiltin_wf hB) hx, hp]
      unfold validateStatic
      rw [castItv_eq (ofBuiltin_wf hB), Out.ret_bind]
      show (if exclStatic T.base T.lo T.hi (Opd.ofBuiltin B) = true then _ else _) = _ → _
      intro h
      split at h
      · cases h
      · rename_i hne
        rw [if_neg hne]
        split
        · intro h; cases h
        · dsimp only; split <;> (intro h; cases h)
    have h2 : validateStatic T.base T.lo T.hi p (Opd.ofBuiltin B) = .fault .illFormed ∨
        validateStatic T.base T.lo T.hi p (Opd.ofBuiltin B) = .ret () := by
      unfold validateStatic
      rw [castItv_eq (ofBuiltin_wf hB), Out.ret_bind]
      dsimp only
      split_ifs <;> simp
    rcases h2 with h2 | h2
    · exact Or.inl h2
    · exact Or.inr ⟨h2, fun x hx => hv x hx h2⟩
  unfold inputStatic
  rcases key tInt Arch.intMax with h | ⟨h, h'⟩
  · rw [h]; exact Or.inl rfl
  · rw [h, Out.ret_bind]
    rcases key T.base hT.1 with g | ⟨g, _⟩
    · rw [g]; exact Or.inl rfl
    · rw [g, Out.ret_bind, hd]; exact Or.inr ⟨rfl, h'⟩

theorem dispatch_throw {p : EP} (hp : p.ae = .throw) : dispatch p .domain_error = .thrown .domain_error := by
  unfold dispatch; simp [EP.act, makeAction, hp]; rfl

/-! ### C37 -/

theorem extract_some_in {s : IStream} (x : Int) (h : (s.extract tInt some none).1 = some x) : tInt.In x := by
  unfold IStream.extract at h
  rcases hs : s.sentry with ⟨s', ok⟩
  rw [hs] at h
  dsimp only at h
  rcases ok with _ | _
  · cases h
  · rw [if_pos rfl] at h
    rcases hc : scan s'.buf with ⟨neg, ds, rest⟩
    rw [hc] at h
    dsimp only at h
    split at h
    · cases h; exact tInt.in_zero
    · cases h; exact stage3_in tInt neg (digitsVal ds)

theorem validateStatic_iff {p : EP} (hp : p.ae = .throw) {T : Opd} (hT : T.Wf) {B : ITy} (hB : B.Ok) :
    validateStatic T.base T.lo T.hi p (Opd.ofBuiltin B) = .ret () ↔ ∃ x, B.In x ∧ T.Has x := by
  have hd : p.traps (castErrs T.base B) = false := by
    unfold EP.traps castErrs
    cases T.base.signed <;> cases B.signed <;> simp [EP.act, makeAction, hp]
  have hm := T.base.min_le_max
  have hb := B.min_le_max
  have hl := hT.2.2.2.1
  have e : validateStatic T.base T.lo T.hi p (Opd.ofBuiltin B) =
      if exclStatic T.base T.lo T.hi (Opd.ofBuiltin B) = true then .fault .illFormed else .ret () := by
    unfold validateStatic
    rw [castItv_eq (ofBuiltin_wf hB), Out.ret_bind]
    by_cases h : exclStatic T.base T.lo T.hi (Opd.ofBuiltin B) = true
    · rw [if_pos h]; exact if_pos h
    · rw [if_neg h]
      refine (if_neg h).trans ?_
      split
      · rfl
      · split
        · rename_i h'; exact absurd (hd.symm.trans h') (by simp)
        · rfl
  rw [e]
  by_cases h : exclStatic T.base T.lo T.hi (Opd.ofBuiltin B) = true
  · rw [if_pos h]
    have h' := exclStatic_sound hT.2.1 hT.2.2.1 h
    refine ⟨fun h => (by cases h), ?_⟩
    rintro ⟨x, ⟨x1, x2⟩, x3, x4⟩
    have h' : T.hi < B.min ∨ B.max < T.lo := h'
    omega
  · rw [if_neg h]
    refine ⟨fun _ => ?_, fun _ => rfl⟩
    have o1 := hT.2.1.1; have o2 := hT.2.2.1.2
    by_contra hn
    apply h
    have hd : T.hi < B.min ∨ B.max < T.lo := by
      by_contra hc
      rcases Int.lt_or_le T.lo B.min with g | g
      · exact hn ⟨B.min, ⟨le_refl _, hb⟩, by omega, by omega⟩
      · exact hn ⟨T.lo, ⟨g, by omega⟩, le_refl _, hl⟩
    unfold exclStatic
    show ((crLt T.base (castTo T.base B.max) (.ok T.lo)).or (crLt T.base (.ok T.hi) (castTo T.base B.min))).toBool = true
    rw [T3.or_toBool, Bool.or_eq_true]
    rcases hd with g | g
    · right
      have : T.base.In B.min := ⟨by omega, by have := B.min_nonpos; have := T.base.max_ge; omega⟩
      rw [castTo_of_in this, crLt_ok hT.2.2.1 this, decide_eq_true g]; rfl
    · left
      have : T.base.In B.max := ⟨by have := B.max_ge; have := T.base.min_nonpos; omega, by omega⟩
      rw [castTo_of_in this, crLt_ok this hT.2.1, decide_eq_true g]; rfl

/-- C37, what compiles: input into a safe type with a throwing policy compiles exactly if some value of the type is an `int`
(also for types that are never read as `int`). -/
theorem C37_compiles (p : EP) (hp : p.ae = .throw) (T : Opd) (hT : T.Wf) (old : Int) (ho : T.Has old) (s : IStream) :
    (input p T old s).1 ≠ .fault .illFormed ↔ ∃ x, tInt.In x ∧ T.Has x := by
  have hd : p.traps [.domain_error] = false := by
    unfold EP.traps; simp [EP.act, makeAction, hp]
  have hst : inputStatic p T = .ret () ↔ ∃ x, tInt.In x ∧ T.Has x := by
    rw [← validateStatic_iff hp hT (show tInt.Ok from Arch.intMax)]
    unfold inputStatic
    rcases hv : validateStatic T.base T.lo T.hi p (Opd.ofBuiltin tInt) with _ | e | f
    · rw [Out.ret_bind, (validateStatic_iff hp hT hT.1).2 ⟨old, hT.has_in ho, ho⟩, Out.ret_bind, hd]; simp
    · rw [Out.thrown_bind]
    · rw [Out.fault_bind]
  rw [← hst]
  unfold input
  rcases inputStatic_cases hp hT with e | ⟨e, e'⟩
  · rw [e]; simp
  rw [e]
  refine ⟨fun _ => rfl, fun _ => ?_⟩
  dsimp only
  rcases hc : isCharTy T.base with _ | _
  · simp only [Bool.false_eq_true, if_false]
    have hm := extract_in (s := inputPrep T s) (hT.has_in ho)
    have e'' := (validateStatic_iff hp hT hT.1).2 ⟨old, hT.has_in ho, ho⟩
    unfold inputInt
    rcases hx : (inputPrep T s).extract T.base id old with ⟨m, s'⟩
    rw [hx] at hm
    dsimp only at hm ⊢
    split
    · rw [dispatch_throw hp]; simp
    · rcases input_validate_cases hp hT hT.1 hm with w | ⟨w, _⟩ | ⟨⟨_, w⟩, _⟩
      · exfalso
        rw [validate_eq hT.2.1 hT.2.2.1 (ofBuiltin_wf hT.1) hm, hp] at w
        have hne : ¬ exclStatic T.base T.lo T.hi (Opd.ofBuiltin T.base) = true := by
          intro h
          have h := exclStatic_sound hT.2.1 hT.2.2.1 h
          have h : T.hi < T.base.min ∨ T.base.max < T.lo := h
          have := hT.2.1; have := hT.2.2.1
          unfold ITy.In at *
          omega
        rw [if_neg hne] at w
        split at w
        · cases w
        · dsimp only at w; split at w <;> cases w
      · rw [w]; simp
      · rw [w]; simp
  · rw [if_pos rfl]
    unfold inputChar
    have hm := extract_some_in (s := s)
    rcases hx : s.extract tInt some none with ⟨m, s'⟩
    rw [hx] at hm
    dsimp only at hm ⊢
    rcases m with _ | x
    · simp
    · have := e' x (hm x rfl)
      dsimp only
      rcases hv : validate T.base T.lo T.hi p (Opd.ofBuiltin tInt) x with v | e | f
      · simp
      · simp
      · rw [hv] at this
        simpa using this

/-- C37, types that are not character types: an input that returns has read a number that is in range and stored it; the
stream has not failed and stands behind the number; the number had no minus sign if the type is unsigned. -/
theorem C37_reads_partial (p : EP) (hp : p.ae = .throw) (T : Opd) (hT : T.Wf) (hc : T.base.lg ≠ 0) (old : Int)
    (s : IStream) (h : (input p T old s).1 = .ret ()) :
    ∃ neg n rest, NumberAt s.buf neg n rest ∧ T.Has n ∧ input p T old s = (.ret (), n, ⟨rest, rest.isEmpty, false⟩) ∧
      (T.base.signed = false → neg = false) := by
  have hc : isCharTy T.base = false := by unfold isCharTy; simpa using hc
  unfold input at *
  rcases inputStatic_cases hp hT with e | ⟨e, _⟩
  · rw [e] at h; cases h
  rw [e] at h ⊢
  dsimp only at h ⊢
  rw [hc] at h ⊢
  simp only [Bool.false_eq_true, if_false] at h ⊢
  unfold inputInt at *
  rcases hx : (inputPrep T s).extract T.base id old with ⟨m, s'⟩
  rw [hx] at h
  dsimp only at h ⊢
  by_cases hf : s'.fail = true
  · rw [if_pos hf, dispatch_throw hp] at h; cases h
  · rw [if_neg hf] at h ⊢
    have hg := extract_good (V := T.base) (st := id) (old := old) (s := inputPrep T s) (by rw [hx]; simpa using hf)
    obtain ⟨g1, g2, neg, n, rest, v, hN, hE, hV, hH⟩ := hg
    rw [hx] at hE
    simp only [id] at hE
    have key : (T.base.signed = false → neg = false) ∧ NumberAt s.buf neg n rest := by
      rcases hs : T.base.signed with _ | _
      · rcases prep_cases hs s with (b | b) | ⟨k1, k2, k3, k4⟩
        · rw [b] at g2; cases g2
        · rw [b] at g1; cases g1
        · rw [k3] at hH hN
          dsimp only at hH hN
          rw [dropWhile_idem] at hH
          refine ⟨fun _ => ?_, number_drop hN⟩
          rcases neg with _ | _
          · rfl
          · exact absurd (hH.2 rfl) k4
      · refine ⟨fun h => (by cases h), ?_⟩
        have : inputPrep T s = s := by unfold inputPrep; rw [hs]; simp
        rw [this] at hN; exact hN
    obtain ⟨hv, hi⟩ := hV key.1
    subst hv
    rw [Prod.mk.injEq] at hE
    obtain ⟨h1, h2⟩ := hE
    subst h1 h2
    refine ⟨neg, _, rest, key.2, ?_⟩
    rcases input_validate_cases hp hT hT.1 hi with w | ⟨w, w'⟩ | ⟨⟨_, w⟩, _⟩
    · rw [w] at h; cases h
    · rw [w]; exact ⟨w', rfl, key.1⟩
    · rw [w] at h; cases h

/-- C37, the other direction: a number in range is read (if input compiles at all for the type); a minus sign is not
accepted for unsigned types, even in `-0`. All types. -/
theorem C37_accepts (p : EP) (hp : p.ae = .throw) (T : Opd) (hT : T.Wf) (old : Int) (s : IStream) (he : s.eof = false)
    (hf : s.fail = false) (neg : Bool) (n : Int) (rest : List Char) (hN : NumberAt s.buf neg n rest) (hn : T.Has n)
    (hs : T.base.signed = false → T.base.lg ≠ 0 → neg = false) :
    input p T old s = (.ret (), n, ⟨rest, rest.isEmpty, false⟩) ∨ (input p T old s).1 = .fault .illFormed := by
  have hin := hT.has_in hn
  unfold input
  rcases inputStatic_cases hp hT with e | ⟨e, e'⟩
  · rw [e]; exact Or.inr rfl
  left
  rw [e]; dsimp only
  rcases hc : isCharTy T.base with _ | _
  · simp only [Bool.false_eq_true, if_false]
    have hl : T.base.lg ≠ 0 := by unfold isCharTy at hc; simpa using hc
    have hx : (inputPrep T s).extract T.base id old = (n, ⟨rest, rest.isEmpty, false⟩) := by
      rcases hsg : T.base.signed with _ | _
      · have hneg := hs hsg hl
        rcases number_scan hN with ⟨ds, d1, d2, d3, d4, d5⟩
        have hne : (s.buf.dropWhile isWs).head? ≠ some '-' := by
          intro h; rw [d5.1 h] at hneg; cases hneg
        rcases prep_cases hsg s with b | ⟨k1, k2, k3, k4⟩
        · exfalso
          revert b
          unfold inputPrep
          rw [hsg, if_neg (by simp)]
          unfold IStream.ws
          rw [if_neg (by simp [he, hf])]
          dsimp only
          rw [if_neg (show ¬ (s.buf.dropWhile isWs).isEmpty = true by simpa using d1)]
          rcases hb : s.buf.dropWhile isWs with _ | ⟨c, r⟩
          · exact absurd hb d1
          · unfold IStream.peek
            rw [hb] at hne
            have hcc : c ≠ '-' := fun h => hne (by rw [h]; rfl)
            simp [he, hf, hcc]
        · rw [k3]
          exact extract_number rfl rfl (drop_number hN) hin (fun _ => hneg)
      · have : inputPrep T s = s := by unfold inputPrep; rw [hsg]; simp
        rw [this]
        exact extract_number he hf hN hin (fun h => by rw [hsg] at h; cases h)
    unfold inputInt
    rw [hx]
    simp only [Bool.false_eq_true, if_false]
    rcases input_validate_cases hp hT hT.1 hin with w | ⟨w, _⟩ | ⟨_, w⟩
    · exfalso
      rw [validate_eq hT.2.1 hT.2.2.1 (ofBuiltin_wf hT.1) hin, hp] at w
      split at w
      · rename_i hx
        have := exclStatic_sound hT.2.1 hT.2.2.1 hx
        change T.hi < T.base.min ∨ T.base.max < T.lo at this
        have a1 := hT.2.1.1; have a2 := hT.2.1.2; have a3 := hT.2.2.1.1; have a4 := hT.2.2.1.2
        omega
      · split at w
        · cases w
        · dsimp only at w; split at w <;> cases w
    · rw [w]
    · exact absurd hn w
  · rw [if_pos rfl]
    have hl : T.base.lg = 0 := by unfold isCharTy at hc; simpa using hc
    have hint : tInt.In n := by
      have : T.base.lg < Arch.intLg := by have := Arch.int16; omega
      have hpr : promote T.base = tInt := by unfold promote; rw [if_pos this]
      have := in_promote hin
      rw [hpr] at this; exact this
    have hx := extract_number (V := tInt) (st := some) (old := none) he hf hN hint (fun h => by cases h)
    unfold inputChar
    rw [hx]
    dsimp only
    rcases input_validate_cases hp hT (show tInt.Ok from Arch.intMax) hint with w | ⟨w, _⟩ | ⟨_, w⟩
    · exact absurd w (e' n hint)
    · rw [w]
    · exact absurd hn w

/-- C37, character types: an input that returns leaves a value in range; if the stream has not failed it is the number
read. -/
theorem C37_char_partial (p : EP) (hp : p.ae = .throw) (T : Opd) (hT : T.Wf) (hc : T.base.lg = 0) (old : Int)
    (s : IStream) (h : (input p T old s).1 = .ret ()) :
    T.Has (input p T old s).2.1 ∧
    ((input p T old s).2.2.fail = false → ∃ neg n rest, NumberAt s.buf neg n rest ∧
      input p T old s = (.ret (), n, ⟨rest, rest.isEmpty, false⟩)) := by
  have hc : isCharTy T.base = true := by unfold isCharTy; simpa using hc
  unfold input at *
  rcases inputStatic_cases hp hT with e | ⟨e, _⟩
  · rw [e] at h; cases h
  rw [e] at h ⊢
  dsimp only at h ⊢
  rw [hc, if_pos rfl] at h ⊢
  unfold inputChar at *
  rcases hx : s.extract tInt some none with ⟨m, s'⟩
  rw [hx] at h
  dsimp only at h ⊢
  rcases m with _ | x
  · cases h
  dsimp only at h ⊢
  have hxi : tInt.In x := by
    have : ∃ y, (s.extract tInt some none).1 = some y ∧ tInt.In y ∨ (s.extract tInt some none).1 = none := by
      unfold IStream.extract
      rcases s.sentry with ⟨s', ok⟩
      dsimp only
      rcases ok with _ | _
      · exact ⟨0, Or.inr rfl⟩
      · rw [if_pos rfl]
        rcases scan s'.buf with ⟨neg, ds, rest⟩
        dsimp only
        split
        · exact ⟨0, Or.inl ⟨rfl, tInt.in_zero⟩⟩
        · exact ⟨_, Or.inl ⟨rfl, stage3_in tInt neg (digitsVal ds)⟩⟩
    rw [hx] at this
    obtain ⟨y, ⟨h1, h2⟩ | h1⟩ := this
    · cases h1; exact h2
    · cases h1
  rcases input_validate_cases hp hT (show tInt.Ok from Arch.intMax) hxi with w | ⟨w, w'⟩ | ⟨⟨_, w⟩, _⟩
  · rw [w] at h; cases h
  · rw [w]
    refine ⟨w', fun hf => ?_⟩
    have hg := extract_good (V := tInt) (st := some) (old := none) (s := s) (by rw [hx]; exact hf)
    obtain ⟨_, _, neg, n, rest, v, hN, hE, hV, _⟩ := hg
    rw [hx, Prod.mk.injEq] at hE
    obtain ⟨h1, rfl⟩ := hE
    cases h1
    obtain ⟨rfl, _⟩ := hV (fun h => by cases h)
    exact ⟨neg, _, rest, hN, rfl⟩
  · rw [w] at h; cases h

/-- C37, the range invariant when an exception is thrown: it holds for types whose range is that of their base type, and
for character types. -/
theorem C37_invariant_partial (p : EP) (hp : p.ae = .throw) (T : Opd) (hT : T.Wf)
    (hr : T.base.lg = 0 ∨ (T.lo = T.base.min ∧ T.hi = T.base.max)) (old : Int) (s : IStream) (ho : T.Has old) :
    T.Has (input p T old s).2.1 := by
  unfold input
  rcases inputStatic_cases hp hT with e | ⟨e, _⟩
  · rw [e]; exact ho
  rw [e]; dsimp only
  rcases hc : isCharTy T.base with _ | _
  · simp only [Bool.false_eq_true, if_false]
    have hl : T.base.lg ≠ 0 := by unfold isCharTy at hc; simpa using hc
    obtain ⟨r1, r2⟩ := hr.resolve_left hl
    have hin := hT.has_in ho
    have hm := extract_in (s := inputPrep T s) hin
    have : T.Has ((inputPrep T s).extract T.base id old).1 := ⟨by rw [r1]; exact hm.1, by rw [r2]; exact hm.2⟩
    unfold inputInt
    rcases hx : (inputPrep T s).extract T.base id old with ⟨m, s'⟩
    rw [hx] at this
    dsimp only at this ⊢
    split
    · exact this
    · split <;> exact this
  · rw [if_pos rfl]
    have hl : T.base.lg = 0 := by unfold isCharTy at hc; simpa using hc
    by_cases hret : (input p T old s).1 = .ret ()
    · have := (C37_char_partial p hp T hT hl old s hret).1
      unfold input at this
      rw [e] at this; dsimp only at this
      rw [hc, if_pos rfl] at this
      exact this
    · unfold input at hret
      rw [e] at hret; dsimp only at hret
      rw [hc, if_pos rfl] at hret
      unfold inputChar at *
      rcases hx : s.extract tInt some none with ⟨m, s'⟩
      rw [hx] at hret
      dsimp only at hret ⊢
      rcases m with _ | x
      · exact ho
      · dsimp only at hret ⊢
        split at hret
        · exact absurd rfl hret
        · exact ho
        · exact ho

/-! ### C51 -/

/-- C51: the output of a safe value is the decimal numeral of its value, for every stored type. -/
theorem C51_output (T : Opd) (hT : T.Wf) (t : Int) (ht : T.Has t) : output T t = printInt t := by
  have hin := hT.has_in ht
  unfold output
  rcases hc : isCharTy T.base with _ | _
  · simp only [Bool.false_eq_true, if_false]
    congr 1
    unfold uac
    have hp := in_promote hin
    have hpi : promote tInt = tInt := by unfold promote; rw [if_neg (by show ¬ Arch.intLg < Arch.intLg; omega)]
    dsimp only
    rw [hpi]
    have hlg := promote_lg T.base
    have hge : Arch.intLg ≤ (promote T.base).lg := by
      unfold promote; split
      · exact Nat.le_refl _
      · omega
    rcases hsg : (promote T.base).signed with _ | _
    · rw [if_neg (show ¬ (tInt.signed = false) by simp [tInt]), if_pos (show tInt.signed = true from rfl), if_neg (by show ¬ _ < Arch.intLg; omega)]
      exact conv_of_in hp
    · rw [if_pos (show tInt.signed = true from rfl)]
      split
      · exact conv_of_in hp
      · rename_i hnl
        have : promote T.base = tInt := by
          have e1 : (promote T.base).lg = Arch.intLg := by
            have : ¬ Arch.intLg < (promote T.base).lg := hnl
            omega
          rcases hq : promote T.base with ⟨a, b⟩
          rw [hq] at hsg e1
          simp only at hsg e1
          rw [hsg, e1]; rfl
        rw [this] at hp; exact conv_of_in hp
  · rw [if_pos rfl]
    have hl : T.base.lg = 0 := by unfold isCharTy at hc; simpa using hc
    have : T.base.lg < Arch.intLg := by have := Arch.int16; omega
    have hpr : promote T.base = tInt := by unfold promote; rw [if_pos this]
    have hp := in_promote hin
    rw [hpr] at hp
    have hu : uac tInt T.base = tInt := by
      unfold uac
      have hpi : promote tInt = tInt := by unfold promote; rw [if_neg (by show ¬ Arch.intLg < Arch.intLg; omega)]
      dsimp only
      rw [hpi, hpr]; simp
    rw [hu, conv_of_in hp, conv_of_in hp]

omit [Arch] in
/-- the numeral that is printed writes the number: a minus sign for negative numbers, then its digits -/
theorem C51_numeral (t : Int) (rest : List Char) (hr : ∀ c, rest.head? = some c → isDig c = false) :
    NumberAt (printInt t ++ rest) (decide (t < 0)) t rest := by
  unfold printInt
  obtain ⟨h1, h2, h3⟩ := decDigits_spec (t.natAbs + 1) t.natAbs (by omega)
  split
  · rename_i h
    refine ⟨[], ['-'], _, ?_, by simp, h3, h2, hr, Or.inl ⟨by simpa using h, rfl, ?_⟩⟩
    · simp
    · rw [h1]; omega
  · rename_i h
    refine ⟨[], [], _, ?_, by simp, h3, h2, hr, Or.inr ⟨by simpa using h, Or.inl rfl, ?_⟩⟩
    · simp
    · rw [h1]; omega

/-- C51: a value written to a stream and read back into a variable of the same type (or any type `S` that has the value) is
the same value, and the characters behind it are left; provided input compiles for the type. -/
theorem C51_round_trip (p : EP) (hp : p.ae = .throw) (T S : Opd) (hT : T.Wf) (hS : S.Wf) (t : Int) (ht : T.Has t)
    (hs : S.Has t) (old : Int) (rest : List Char) (hr : ∀ c, rest.head? = some c → isDig c = false) :
    input p S old ⟨output T t ++ rest, false, false⟩ = (.ret (), t, ⟨rest, rest.isEmpty, false⟩) ∨
    (input p S old ⟨output T t ++ rest, false, false⟩).1 = .fault .illFormed := by
  rw [C51_output T hT t ht]
  refine C37_accepts p hp S hS old _ rfl rfl (decide (t < 0)) t rest (C51_numeral t rest hr) hs ?_
  intro h _
  have := (hS.has_in hs).nonneg h
  simpa using this

end

section
attribute [local instance] lp64

-- `safe_unsigned_range<5000000000, 6000000000>` cannot be read; `safe<long>` can
example : Opd.Wf (Opd.range u64 5000000000 6000000000) ∧ (Opd.range u64 5000000000 6000000000).Has 5500000000 := by decide +kernel
example : (Opd.ofSafe i64).Has 5 ∧ tInt.In 5 := by decide +kernel
example : input strictException (Opd.range i32 (-10) 10) 3 ⟨[' ', '-', '7', ';'], false, false⟩ =
    (.ret (), -7, ⟨[';'], false, false⟩) := by decide +kernel
example : input strictException (Opd.ofSafe i8) 3 ⟨['4', '2'], false, false⟩ = (.ret (), 42, ⟨[], true, false⟩) := by
  decide +kernel
example : input strictException (Opd.ofSafe i8) 3 ⟨['4', '2', '0'], false, false⟩ =
    (.thrown .positive_overflow_error, 3, ⟨[], true, false⟩) := by decide +kernel
example : input strictException (Opd.ofSafe u32) 3 ⟨['-', '7'], false, false⟩ =
    (.thrown .domain_error, 3, ⟨['-', '7'], false, true⟩) := by decide +kernel
example : NumberAt [' ', '-', '7', ';'] true (-7) [';'] := by
  refine ⟨[' '], ['-'], ['7'], rfl, by decide, by decide, by decide, ?_, Or.inl ⟨rfl, rfl, by decide⟩⟩
  intro c hc; simp at hc; subst hc; decide
example : output (Opd.ofSafe i8) (-5) = ['-', '5'] ∧ output (Opd.range u16 0 999) 120 = ['1', '2', '0'] := by
  decide +kernel

/-- The range invariant is lost when reading throws: a number that is out of range stays in the variable. -/
theorem C37_range_refuted :
    input strictException (Opd.range u16 5 10) 7 ⟨['1', '2'], false, false⟩ =
      (.thrown .positive_overflow_error, 12, ⟨[], true, false⟩) ∧ ¬ (Opd.range u16 5 10).Has 12 := by decide +kernel

/-- Text that is not a number stores 0, which may be out of range. -/
theorem C37_text_refuted :
    input strictException (Opd.range u16 5 10) 7 ⟨['x'], false, false⟩ = (.thrown .domain_error, 0, ⟨['x'], false, true⟩) ∧
    ¬ (Opd.range u16 5 10).Has 0 := by decide +kernel

/-- Reading text that is not a number into a character type stores 0 and does not throw. -/
theorem C37_char_text_refuted :
    input strictException (Opd.ofSafe i8) 7 ⟨['x'], false, false⟩ = (.ret (), 0, ⟨['x'], false, true⟩) := by decide +kernel

/-- Reading from an exhausted stream into a character type uses an uninitialised variable. -/
theorem C37_char_empty_refuted : (input strictException (Opd.ofSafe i8) 7 ⟨[], false, false⟩).1 = .fault .ub := by
  decide +kernel

/-- Input does not compile for a type whose range does not meet the range of `int`, although `int` is not used. -/
theorem C37_compile_refuted : ∀ s, (input strictException (Opd.range u64 5000000000 6000000000) 5500000000 s).1 =
    .fault .illFormed := by
  intro s
  unfold input
  rw [show inputStatic strictException (Opd.range u64 5000000000 6000000000) = .fault .illFormed by decide +kernel]

end
end Verif.Props
