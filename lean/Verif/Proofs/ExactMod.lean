import Verif.Proofs.ExactDiv

/-!
Helper lemmas for C76: exactly when the run time check of `%` is left out, and what happens then, for an arbitrary result type.
-/

namespace Verif
open Spec
section
variable [Arch]

/-- the estimate of a remainder -/
private theorem rem_est {R : ITy} {x y : Int} (h0 : y ≠ 0) :
    ∃ c, crMod R (castTo R x) (castTo R y) = .ret c ∧
      (Vague c ↔ (¬ R.In x ∧ ¬ R.In y) ∨ (R.signed = false ∧ (x < 0 ∨ y < 0))) ∧
      ((R.signed = true ∨ (0 ≤ x ∧ 0 ≤ y)) → ((c = below ∨ c = above) ↔ ModClash R x y)) := by
  have hz := R.min_nonpos; have hm := R.max_ge; have he := ITy.min_eq R
  unfold ModClash
  have dom : Vague (.err .domain_error) := ⟨_, rfl, by decide, by decide⟩
  rcases castTo_cases R x with ⟨ex, ix⟩ | ⟨ex, ix⟩ | ⟨ex, ix, sx⟩ | ⟨ex, sx, ix⟩ <;>
    rcases castTo_cases R y with ⟨ey, iy⟩ | ⟨ey, iy⟩ | ⟨ey, iy, sy⟩ | ⟨ey, sy, iy⟩ <;> rw [ex, ey]
  · -- both in `R`
    have hx : ∃ v, crMod R (.ok x) (.ok y) = .ret (.ok v) := by
      have key : ∃ v, modulus R make x y = .ret (.ok v) := by
        rw [modulus_eq ix iy, if_neg h0]; split <;> exact ⟨_, rfl⟩
      unfold crMod
      rw [prodFlag_ok ix, prodFlag_ok iy]
      split_ifs <;> first | exact key | exact ⟨_, rfl⟩ | omega
    obtain ⟨v, hv⟩ := hx
    have := ix.1; have := ix.2
    refine ⟨_, hv, iff_of_false (not_vague_ok _) ?_, fun _ => iff_of_false (by simp) (by omega)⟩
    rintro (g | ⟨s, g⟩)
    · exact g.1 ix
    · have := ix.nonneg s; have := iy.nonneg s; omega
  · have hv : ∃ v, crMod R (.ok x) above = .ret (.ok v) := by
      unfold crMod; rw [prodFlag_ok ix]; split_ifs <;> exact ⟨_, rfl⟩
    obtain ⟨v, hv⟩ := hv
    have := ix.1; have := ix.2
    refine ⟨_, hv, iff_of_false (not_vague_ok _) ?_, fun _ => iff_of_false (by simp) (by omega)⟩
    rintro (g | ⟨s, g⟩)
    · exact g.1 ix
    · have := ix.nonneg s; omega
  · have hv : ∃ v, crMod R (.ok x) below = .ret (.ok v) := by
      unfold crMod; rw [prodFlag_ok ix]; split_ifs <;> exact ⟨_, rfl⟩
    obtain ⟨v, hv⟩ := hv
    have := ix.1; have := ix.2
    refine ⟨_, hv, iff_of_false (not_vague_ok _) ?_, fun _ => iff_of_false (by simp) (by omega)⟩
    rintro (g | ⟨s, g⟩)
    · exact g.1 ix
    · rw [sy] at s; cases s
  · rw [crMod_vague (Or.inr dom)]
    exact ⟨_, rfl, iff_of_true vague_range (Or.inr ⟨sy, Or.inr iy⟩), fun g => by rw [sy] at g; simp at g; omega⟩
  · -- above, in `R`
    have e : crMod R above (.ok y) = subtract R make y 1 := by
      unfold crMod; rw [prodFlag_ok iy]; split_ifs <;> first | omega | rfl
    have := iy.1; have := iy.2
    rw [e, subtract_eq iy R.in_one, if_neg (by omega)]
    by_cases g : y - 1 < R.min
    · rw [if_pos g]
      refine ⟨_, rfl, iff_of_false not_vague_neg ?_, fun _ => iff_of_true (Or.inl rfl) (by omega)⟩
      rintro (g | ⟨s, g⟩)
      · exact g.2 iy
      · have := iy.nonneg s; omega
    · rw [if_neg g]
      refine ⟨_, rfl, iff_of_false (not_vague_ok _) ?_, fun _ => iff_of_false (by simp) (by omega)⟩
      rintro (g | ⟨s, g⟩)
      · exact g.2 iy
      · have := iy.nonneg s; omega
  · exact ⟨.err .range_error, rfl, iff_of_true vague_range
      (Or.inl ⟨fun g => by have := g.2; omega, fun g => by have := g.2; omega⟩), fun _ => iff_of_false (by simp) (by omega)⟩
  · exact ⟨.err .range_error, rfl, iff_of_true vague_range
      (Or.inl ⟨fun g => by have := g.2; omega, fun g => by have := g.1; omega⟩), fun _ => iff_of_false (by simp) (by omega)⟩
  · rw [crMod_vague (Or.inr dom)]
    exact ⟨_, rfl, iff_of_true vague_range (Or.inr ⟨sy, Or.inr iy⟩), fun g => by rw [sy] at g; simp at g; omega⟩
  · -- below, in `R`
    have e : crMod R below (.ok y) = subtract R make 1 y := by
      unfold crMod; rw [prodFlag_ok iy]; split_ifs <;> first | omega | rfl
    have := iy.1; have := iy.2
    rw [sx, if_pos rfl] at he
    rw [e, subtract_eq R.in_one iy]
    by_cases g : R.max < 1 - y
    · rw [if_pos g]
      refine ⟨_, rfl, iff_of_false not_vague_pos ?_, fun _ => iff_of_true (Or.inr rfl) (by omega)⟩
      rintro (g | ⟨s, g⟩)
      · exact g.2 iy
      · rw [sx] at s; cases s
    · rw [if_neg g, if_neg (by omega)]
      refine ⟨_, rfl, iff_of_false (not_vague_ok _) ?_, fun _ => iff_of_false (by simp) (by omega)⟩
      rintro (g | ⟨s, g⟩)
      · exact g.2 iy
      · rw [sx] at s; cases s
  · exact ⟨.err .range_error, rfl, iff_of_true vague_range
      (Or.inl ⟨fun g => by have := g.1; omega, fun g => by have := g.2; omega⟩), fun _ => iff_of_false (by simp) (by omega)⟩
  · exact ⟨.err .range_error, rfl, iff_of_true vague_range
      (Or.inl ⟨fun g => by have := g.1; omega, fun g => by have := g.1; omega⟩), fun _ => iff_of_false (by simp) (by omega)⟩
  · rw [sx] at sy; cases sy
  all_goals
    rw [crMod_vague (Or.inl dom)]
    exact ⟨_, rfl, iff_of_true vague_range (Or.inr ⟨sx, Or.inl ix⟩), fun g => by rw [sx] at g; simp at g; omega⟩

private theorem modExc_iff {R : ITy} {T U : Opd} {c1 c4 c5 c8 : CR} (hl : U.lo ≤ U.hi)
    (e1 : crMod R (castTo R T.lo) (castTo R U.lo) = .ret c1) (e4 : crMod R (castTo R T.lo) (castTo R U.hi) = .ret c4)
    (e5 : crMod R (castTo R T.hi) (castTo R U.lo) = .ret c5) (e8 : crMod R (castTo R T.hi) (castTo R U.hi) = .ret c8) :
    modExc R T U = false ↔ (0 < U.lo ∨ (R.signed = true ∧ U.hi < 0)) ∧ ¬ Vague c1 ∧
      ∀ x ∈ [c1, c4, c5, c8], x ≠ below ∧ x ≠ above := by
  have pr : ∀ {a b : Int} {c : CR}, crMod R (castTo R a) (castTo R b) = .ret c → Proper R c := fun {a b c} e => by
    obtain ⟨c', e', p, _⟩ := crMod_total (R := R) (castTo_proper (x := a)) (castTo_proper (x := b))
    rw [e] at e'; rw [Out.ret.inj e']; exact p
  have hp : ∀ x ∈ [c1, c4, c5, c8], Proper R x := by
    intro c hc; simp at hc
    rcases hc with rfl | rfl | rfl | rfl
    · exact pr e1
    · exact pr e4
    · exact pr e5
    · exact pr e8
  by_cases hth : thenCond R ⟨castTo R U.lo, castTo R U.hi⟩ = true
  · obtain ⟨m, M, em, h⟩ := ends_iff hp
    have e : modItv R ⟨castTo R T.lo, castTo R T.hi⟩ ⟨castTo R U.lo, castTo R U.hi⟩ = .ret ⟨m, M⟩ := by
      unfold modItv divModItv
      change (if thenCond R _ = true then _ else _) = _
      rw [if_pos hth]
      simp only [itvMod, excludes_of_then hth, assertThat, if_true, Out.ret_bind, corners, minmax4, e1, e4, e5, e8, em]
    rw [← h]
    unfold modExc
    rw [e]
    unfold divExcPossible
    rw [not_includes hth]
    simp only [Bool.false_or, Bool.or_eq_false_iff]
    exact ⟨fun g => ⟨then_iff.1 hth, g⟩, fun g => g.2⟩
  · refine iff_of_false ?_ (fun g => hth (then_iff.2 g.1))
    obtain ⟨ri, e, pl, pu, hv⟩ := modItv_total (R := R) (t := ⟨castTo R T.lo, castTo R T.hi⟩)
      (u := ⟨castTo R U.lo, castTo R U.hi⟩) castTo_proper castTo_proper castTo_proper castTo_proper
    unfold modExc
    rw [e]
    unfold divExcPossible
    rcases else_includes hl (by simpa using hth) with g | g
    · simp [g]
    · simp [exc_of_vague (hv (Or.inr g)) (fun _ _ => trivial) R pl]

/-- exactly when the run time check of `%` is left out -/
theorem modExc_unchecked {R : ITy} {T U : Opd} (hT : T.lo ≤ T.hi) (hU : U.lo ≤ U.hi) :
    modExc R T U = false ↔ ModUnchecked R T U := by
  by_cases hd : 0 < U.lo ∨ (R.signed = true ∧ U.hi < 0)
  · obtain ⟨c1, e1, v1, k1⟩ := rem_est (R := R) (x := T.lo) (y := U.lo) (by omega)
    obtain ⟨c4, e4, v4, k4⟩ := rem_est (R := R) (x := T.lo) (y := U.hi) (by omega)
    obtain ⟨c5, e5, v5, k5⟩ := rem_est (R := R) (x := T.hi) (y := U.lo) (by omega)
    obtain ⟨c8, e8, v8, k8⟩ := rem_est (R := R) (x := T.hi) (y := U.hi) (by omega)
    rw [modExc_iff hU e1 e4 e5 e8]
    unfold ModUnchecked
    by_cases hs : R.signed = true ∨ 0 ≤ T.lo
    · have dn : R.signed = true ∨ (0 < U.lo ∧ 0 ≤ T.lo) := by
        rcases hs with hs | hs
        · exact Or.inl hs
        · rcases hd with hd | hd
          · exact Or.inr ⟨hd, hs⟩
          · exact Or.inl hd.1
      have q1 := k1 (dn.imp id (fun g => ⟨by omega, by omega⟩))
      have q4 := k4 (dn.imp id (fun g => ⟨by omega, by omega⟩))
      have q5 := k5 (dn.imp id (fun g => ⟨by omega, by omega⟩))
      have q8 := k8 (dn.imp id (fun g => ⟨by omega, by omega⟩))
      have hv : Vague c1 ↔ ¬ (R.In T.lo ∨ R.In U.lo) := by
        rw [v1]
        constructor
        · rintro (g | ⟨s, g⟩)
          · exact fun h => h.elim g.1 g.2
          · rcases dn with h | h
            · rw [h] at s; cases s
            · omega
        · exact fun g => Or.inl ⟨fun h => g (Or.inl h), fun h => g (Or.inr h)⟩
      rw [hv, ← q1, ← q4, ← q5, ← q8]
      constructor
      · rintro ⟨_, a, b⟩
        refine ⟨hd, hs, Classical.not_not.1 a, ?_⟩
        have b1 := b c1 (by simp); have b4 := b c4 (by simp); have b5 := b c5 (by simp); have b8 := b c8 (by simp)
        rintro (h | h | h | h)
        · exact h.elim b1.1 b1.2
        · exact h.elim b4.1 b4.2
        · exact h.elim b5.1 b5.2
        · exact h.elim b8.1 b8.2
      · rintro ⟨_, _, a, b⟩
        refine ⟨hd, fun g => g a, ?_⟩
        intro x hx
        simp only [List.mem_cons, List.not_mem_nil, or_false] at hx
        rcases hx with h | h | h | h <;> subst h
        · exact ⟨fun g => b (Or.inl (Or.inl g)), fun g => b (Or.inl (Or.inr g))⟩
        · exact ⟨fun g => b (Or.inr (Or.inl (Or.inl g))), fun g => b (Or.inr (Or.inl (Or.inr g)))⟩
        · exact ⟨fun g => b (Or.inr (Or.inr (Or.inl (Or.inl g)))), fun g => b (Or.inr (Or.inr (Or.inl (Or.inr g))))⟩
        · exact ⟨fun g => b (Or.inr (Or.inr (Or.inr (Or.inl g)))), fun g => b (Or.inr (Or.inr (Or.inr (Or.inr g))))⟩
    · have s : R.signed = false := by
        rcases h : R.signed with _ | _
        · rfl
        · exact absurd (Or.inl h) hs
      exact iff_of_false (fun g => g.2.1 (v1.2 (Or.inr ⟨s, Or.inl (by omega)⟩))) (fun g => hs g.2.1)
  · obtain ⟨c1, e1, _⟩ := crMod_total (R := R) (castTo_proper (x := T.lo)) (castTo_proper (x := U.lo))
    obtain ⟨c4, e4, _⟩ := crMod_total (R := R) (castTo_proper (x := T.lo)) (castTo_proper (x := U.hi))
    obtain ⟨c5, e5, _⟩ := crMod_total (R := R) (castTo_proper (x := T.hi)) (castTo_proper (x := U.lo))
    obtain ⟨c8, e8, _⟩ := crMod_total (R := R) (castTo_proper (x := T.hi)) (castTo_proper (x := U.hi))
    rw [modExc_iff hU e1 e4 e5 e8]
    exact iff_of_false (fun g => hd g.1) (fun g => hd g.1)

private theorem checkedMod_closed {p : EP} (hp : p.ae = .throw) {B R : ITy} {T U : Opd} {t u : Int} (hT : T.Wf) (hU : U.Wf)
    (ht : T.Has t) (hu : U.Has u) :
    (do
      castStatic p B T
      castStatic p B U
      if p.traps [.domain_error] then .fault .illFormed
      else do
        let r ← castingHelper p B T U t u
        let rx ← modulus B (dispatchAndReturn p) r.1 r.2
        if rx.exception then do
          let c ← crMod B (.ok r.1) (.ok r.2)
          let v ← c.value
          Out.ret (conv R v)
        else do
          let v ← rx.value
          Out.ret (conv R v)) =
    if LitsOk B T U then
      (remIn B t u >>= fun v => Out.ret (conv R (if B.signed = true ∧ t = B.min ∧ u = B.min then t else v)))
    else .fault .illFormed := by
  have h : p.ae ≠ .trap := by rw [hp]; decide
  rw [castStatics hT hU, traps_mod]
  by_cases l : LitsOk B T U
  · rw [if_pos ⟨l, h⟩, if_pos l, castingHelper_throw hp hT ht hU hu l.1 l.2]
    simp only [h, decide_false, Bool.false_eq_true, if_false]
    unfold remIn
    rcases ct : castTo B t with a | e
    · obtain ⟨rfl, hti⟩ := castTo_ok ct
      rcases cu : castTo B u with b | e
      · obtain ⟨rfl, hui⟩ := castTo_ok cu
        simp only [orThrow, Out.ret_bind]
        rw [modulus_eq hti hui]
        by_cases h0 : b = 0
        · rw [if_pos h0, if_pos h0, handler_throw hp rfl]; rfl
        · rw [if_neg h0, if_neg h0]
          by_cases hm : B.signed = true ∧ a = B.min ∧ b = B.min
          · rw [if_pos hm, Out.ret_bind, Out.ret_bind, if_pos hm]; rfl
          · rw [if_neg hm, Out.ret_bind, Out.ret_bind, if_neg hm]; rfl
      · rfl
    · rfl
  · rw [if_neg (fun q => l q.1), if_neg l]

/-- the outcome of `%` in closed form -/
theorem runMod_closed {p : EP} (hp : p.ae = .throw ∨ p.ae = .trap) {R : ITy} (hR : R.Ok) {T U : Opd} (hT : T.Wf) (hU : U.Wf)
    {t u : Int} (ht : T.Has t) (hu : U.Has u) :
    runMod p R T U t u =
      if ModUnchecked R T U then
        if conv R u = 0 ∨ (promote R = R ∧ R.signed = true ∧ conv R t = R.min ∧ conv R u = -1) then .fault .ub
        else .ret (conv R ((conv R t).tmod (conv R u)))
      else if LitsOk (room R T U) T U ∧ p.ae = .throw then
        (remIn (room R T U) t u >>= fun v =>
          Out.ret (conv R (if R.signed = true ∧ t = (room R T U).min ∧ u = (room R T U).min then t else v)))
      else .fault .illFormed := by
  have hx := modExc_unchecked (R := R) (T := T) (U := U) hT.2.2.2.1 hU.2.2.2.1
  obtain ⟨ri, e, pl, pu, _⟩ := modItv_total (R := R) (t := ⟨castTo R T.lo, castTo R T.hi⟩)
    (u := ⟨castTo R U.lo, castTo R U.hi⟩) castTo_proper castTo_proper castTo_proper castTo_proper
  have hd : modExc R T U = divExcPossible R ⟨castTo R U.lo, castTo R U.hi⟩ ri := by unfold modExc; rw [e]
  unfold runMod runDivMod
  rw [resItv_of hT hU e, castItv_eq hU]
  simp only [Out.ret_bind]
  rw [← hd]
  by_cases hh : modExc R T U = true
  · have hn : ¬ ModUnchecked R T U := fun g => by rw [hx.2 g] at hh; cases hh
    rw [if_pos hh, if_neg hn, tempBase_room hR hT.1 hU.1]
    simp only [Out.ret_bind]
    rcases hp with hp | hp
    · refine (checkedMod_closed hp hT hU ht hu).trans ?_
      by_cases l : LitsOk (room R T U) T U
      · rw [if_pos l, if_pos ⟨l, hp⟩]; rfl
      · rw [if_neg l, if_neg (fun g => l g.1)]
    · rw [castStatics hT hU, if_neg (fun g => g.2 hp), if_neg (fun g => by rw [hp] at g; cases g.2)]
  · have hn : ModUnchecked R T U := hx.1 (by simpa using hh)
    rw [if_neg hh, if_pos hn, cMod_closed (conv_in R t) (conv_in R u)]
    split <;> rfl

omit [Arch] in
/-- the divisor is not zero if the check is left out -/
theorem mod_unchecked_ne {R : ITy} {T U : Opd} (h : ModUnchecked R T U) {u : Int} (hu : U.Has u) : u ≠ 0 := by
  rintro rfl; have := h.1; have := hu.1; have := hu.2; omega

omit [Arch] in
private theorem remIn_room (B : ITy) (t u : Int) :
    (remIn B t u = .ret (t.tmod u) ∧ u ≠ 0 ∧ B.In t ∧ B.In u) ∨
    ((∃ e, remIn B t u = .thrown e) ∧ ¬ (u ≠ 0 ∧ B.In t ∧ B.In u)) := by
  unfold remIn
  rcases ct : castTo B t with a | e
  · rcases cu : castTo B u with b | e
    · obtain ⟨rfl, hti⟩ := castTo_ok ct
      obtain ⟨rfl, hui⟩ := castTo_ok cu
      dsimp only
      by_cases h0 : b = 0
      · rw [if_pos h0]; exact Or.inr ⟨⟨_, rfl⟩, fun g => g.1 h0⟩
      · rw [if_neg h0]
        exact Or.inl ⟨rfl, h0, hti, hui⟩
    · refine Or.inr ⟨⟨_, rfl⟩, fun g => ?_⟩
      rw [castTo_of_in g.2.2] at cu; cases cu
  · refine Or.inr ⟨⟨_, rfl⟩, fun g => ?_⟩
    rw [castTo_of_in g.2.1] at ct; cases ct

/-- for which values `%` goes wrong -/
theorem runMod_exact {p : EP} (hp : p.ae = .throw) {R : ITy} (hR : R.Ok) {T U : Opd} (hT : T.Wf) (hU : U.Wf) {t u : Int}
    (ht : T.Has t) (hu : U.Has u) : RemRight (runMod p R T U t u) t u ↔ ¬ ModWrong R T U t u := by
  rw [runMod_closed (Or.inl hp) hR hT hU ht hu]
  unfold ModWrong
  by_cases hn : ModUnchecked R T U
  · rw [if_pos hn, if_pos hn]
    by_cases hc : conv R u = 0 ∨ (promote R = R ∧ R.signed = true ∧ conv R t = R.min ∧ conv R u = -1)
    · rw [if_pos hc]
      refine iff_of_false ?_ (fun g => g (by tauto))
      rintro (⟨g, _⟩ | ⟨e, g⟩ | g) <;> cases g
    · rw [if_neg hc]
      constructor
      · rintro (⟨g, _⟩ | ⟨e, g⟩ | g) w
        · have := Out.ret.inj g
          tauto
        · cases g
        · cases g
      · intro w
        refine Or.inl ⟨?_, mod_unchecked_ne hn hu⟩
        congr 1
        by_contra g
        exact w (Or.inr (Or.inr g))
  · rw [if_neg hn, if_neg hn]
    by_cases l : LitsOk (room R T U) T U
    · rw [if_pos ⟨l, hp⟩]
      rcases remIn_room (room R T U) t u with ⟨e, h0, h1, h2⟩ | ⟨⟨x, e⟩, h⟩ <;> rw [e]
      · rw [Out.ret_bind]
        by_cases hm : R.signed = true ∧ t = (room R T U).min ∧ u = (room R T U).min
        · rw [if_pos hm, if_pos hm]
          have h3 : t.tmod u = 0 := by rw [hm.2.1, hm.2.2, Int.tmod_self]
          constructor
          · rintro (⟨g, _⟩ | ⟨e, g⟩ | g) w
            · have := Out.ret.inj g
              exact w.2.2.2 (this.trans h3)
            · cases g
            · cases g
          · intro w
            have : conv R t = 0 := by
              by_contra hc; exact w ⟨h0, h1, h2, hc⟩
            exact Or.inl ⟨by rw [this, h3], h0⟩
        · rw [if_neg hm, if_neg hm]
          constructor
          · rintro (⟨g, _⟩ | ⟨e, g⟩ | g) w
            · have := Out.ret.inj g
              exact w.2.2.2 (this ▸ conv_in R _)
            · cases g
            · cases g
          · intro w
            have : R.In (t.tmod u) := by
              by_contra hc; exact w ⟨h0, h1, h2, hc⟩
            exact Or.inl ⟨by rw [conv_of_in this], h0⟩
      · exact iff_of_true (Or.inr (Or.inl ⟨_, rfl⟩)) (fun g => h ⟨g.1, g.2.1, g.2.2.1⟩)
    · rw [if_neg (fun g => l g.1)]
      exact iff_of_true (Or.inr (Or.inr rfl)) (fun g => l ⟨lit_ends hT ht g.2.1, lit_ends hU hu g.2.2.1⟩)

/-- when `%` throws -/
theorem runMod_decides {p : EP} (hp : p.ae = .throw ∨ p.ae = .trap) {R : ITy} (hR : R.Ok) {T U : Opd} (hT : T.Wf) (hU : U.Wf)
    {t u : Int} (ht : T.Has t) (hu : U.Has u) :
    (∀ e, runMod p R T U t u = .thrown e → ¬ RemFits R T U t u) ∧ (∀ v, runMod p R T U t u = .ret v → RemFits R T U t u) := by
  rw [runMod_closed hp hR hT hU ht hu]
  by_cases hn : ModUnchecked R T U
  · rw [if_pos hn]
    refine ⟨fun e h => ?_, fun v h => ⟨mod_unchecked_ne hn hu, Or.inl hn⟩⟩
    split at h <;> cases h
  · rw [if_neg hn]
    by_cases l : LitsOk (room R T U) T U ∧ p.ae = .throw
    · rw [if_pos l]
      rcases remIn_room (room R T U) t u with ⟨e, h0, h1, h2⟩ | ⟨⟨x, e⟩, h⟩ <;> rw [e]
      · exact ⟨fun _ g => (nomatch g), fun _ _ => ⟨h0, Or.inr ⟨h1, h2⟩⟩⟩
      · exact ⟨fun _ _ g => h ⟨g.1, g.2.resolve_left hn⟩, fun _ g => (nomatch g)⟩
    · rw [if_neg l]
      exact ⟨fun _ g => (nomatch g), fun _ g => (nomatch g)⟩

end
end Verif
