import Verif.RunSpec
import Verif.Props.Fits
import Verif.Props.Phase

/-!
Property C98: the exact meaning of programs with exception handlers, over the integers; a sound and complete logic for them.
-/

namespace Verif.Props
open Spec Lang

section
variable [Arch]

/-! ### statements that store or write one value -/

omit [Arch] in
private theorem drop_nil {b : List Char} (h : ∀ c ∈ b, isWs c = true) : b.dropWhile isWs = [] := by
  induction b with
  | nil => rfl
  | cons c r ih =>
    rw [List.dropWhile_cons_of_pos (h c (by simp))]
    exact ih fun c hc => h c (by simp [hc])

/-- something is read -/
private theorem reads_total (B : ITy) (old : Int) (s : IStream) : ∃ b v t, Reads B old s b v t := by
  by_cases hd : s.eof = true ∨ s.fail = true
  · exact ⟨_, _, _, .dead hd⟩
  have he : s.eof = false := by cases h : s.eof; rfl; exact absurd (Or.inl h) hd
  have hf : s.fail = false := by cases h : s.fail; rfl; exact absurd (Or.inr h) hd
  by_cases hw : ∀ c ∈ s.buf, isWs c = true
  · exact ⟨_, _, _, .ended he hf hw⟩
  by_cases hm : B.signed = false ∧ MinusFirst s.buf
  · obtain ⟨hb, ws, r, e, hw⟩ := hm
    exact ⟨_, _, _, .minus he hf hb e hw⟩
  have hm : B.signed = false → ¬ MinusFirst s.buf := fun h1 h2 => hm ⟨h1, h2⟩
  rcases hr : iread s.buf with _ | ⟨k, rest⟩
  · suffices h : ∃ rest, TextLeft s.buf rest by
      obtain ⟨rest, h⟩ := h
      exact ⟨_, _, _, .text he hf h hm⟩
    have e := (List.takeWhile_append_dropWhile (p := isWs) (l := s.buf)).symm
    have hws : ∀ c ∈ s.buf.takeWhile isWs, isWs c = true :=
      fun c hc => (List.all_eq_true.1 (List.all_takeWhile (p := isWs) (l := s.buf))) c hc
    have hh : ∀ c, (s.buf.dropWhile isWs).head? = some c → isWs c = false := fun c hc => by
      have := List.head?_dropWhile_not isWs s.buf
      rw [hc] at this; simpa using this
    unfold iread at hr
    have dig : ∀ l : List Char, l.takeWhile isDig = [] → NoDigit l := by
      rintro l h c r rfl hc
      rw [List.takeWhile_cons_of_pos ((C90_digit c).2 hc)] at h
      cases h
    have nds : (scan (s.buf.dropWhile isWs)).2.1 = [] := by
      rcases hsc : scan (s.buf.dropWhile isWs) with ⟨neg, ds, r⟩
      rw [hsc] at hr
      dsimp only at hr
      split at hr
      · rename_i h; simpa using h
      · cases hr
    rcases hb : s.buf.dropWhile isWs with _ | ⟨c, r⟩
    · rw [hb, List.append_nil] at e
      rw [e] at hw
      exact absurd hws hw
    · rw [hb] at nds e hh
      by_cases h1 : c = '-'
      · subst h1
        exact ⟨r, s.buf.takeWhile isWs, ['-'], by rw [List.append_assoc]; exact e, hws, dig _ nds, Or.inr (Or.inl rfl)⟩
      · by_cases h2 : c = '+'
        · subst h2
          exact ⟨r, s.buf.takeWhile isWs, ['+'], by rw [List.append_assoc]; exact e, hws, dig _ nds, Or.inl rfl⟩
        · refine ⟨c :: r, s.buf.takeWhile isWs, [], by rw [List.append_nil]; exact e, hws, dig _ ?_,
            Or.inr (Or.inr ⟨rfl, c, r, rfl, hh c rfl, h2, h1⟩)⟩
          unfold scan at nds
          split at nds
          · rename_i h; cases h; exact absurd rfl h1
          · rename_i h; cases h; exact absurd rfl h2
          · exact nds
  · obtain ⟨neg, h⟩ := (C60_iread _ _ _).1 hr
    have hn : B.signed = false → neg = false := fun hb => by
      obtain ⟨ws, sg, ds, e, h1, _, _, _, h2⟩ := h
      rcases h2 with ⟨rfl, rfl, _⟩ | ⟨h2, _⟩
      · exact absurd ⟨ws, _, e, h1⟩ (hm hb)
      · exact h2
    by_cases hk : B.In k
    · exact ⟨_, _, _, .number he hf h hn hk⟩
    · exact ⟨_, _, _, .far he hf h hn hk⟩

/-- what is read is what the library reads into a safe type with its full range -/
private theorem reads_input {p : EP} (hp : p.ae = .throw) {T : Opd} (hT : T.Wf) (hl : T.base.lg ≠ 0) (h1 : T.lo = T.base.min)
    (h2 : T.hi = T.base.max) {old : Int} {s t : IStream} {b : Bool} {v : Int} (ho : T.Has old) (h : Reads T.base old s b v t) :
    ∃ o, Verif.input p T old s = (o, v, t) ∧ Matches b o := by
  have has : ∀ x, T.Has x ↔ T.base.In x := fun x => by
    show T.lo ≤ x ∧ x ≤ T.hi ↔ _
    rw [h1, h2]; exact Iff.rfl
  have acc : (Verif.input p T old s).1 ≠ .fault .illFormed :=
    (C37_compiles p hp T hT old ho s).2 ⟨0, tInt.in_zero, (has 0).2 T.base.in_zero⟩
  obtain ⟨c1, c2, c3⟩ := C90_outcomes p hp T hT hl old s acc
  obtain ⟨d1, d2⟩ := C90_stream p hp T hT old s acc
  have pack : ∀ {o : Out Unit} {v t}, (Verif.input p T old s).1 = o → (Verif.input p T old s).2.1 = v →
      (Verif.input p T old s).2.2 = t → Verif.input p T old s = (o, v, t) := by rintro _ _ _ rfl rfl rfl; rfl
  cases h with
  | number he hf hn hs hk => exact ⟨_, ((c2 _ _ _ he hf hn hs).1 ((has _).2 hk)), rfl⟩
  | far he hf hn hs hk => exact ⟨_, (c2 _ _ _ he hf hn hs).2.2 hk, _, rfl⟩
  | dead hd =>
    have h3 : Stuck s := hd.imp_right Or.inl
    obtain ⟨e1, e2, _⟩ := c1 (Or.inl h3)
    exact ⟨_, pack e1 e2 (d1 hd), _, rfl⟩
  | ended he hf hw =>
    obtain ⟨e1, e2, _⟩ := c1 (Or.inl (Or.inr (Or.inr hw)))
    exact ⟨_, pack e1 e2 ((d2 he hf).1 hw), _, rfl⟩
  | minus he hf hb e hw =>
    obtain ⟨e1, e2, _⟩ := c1 (Or.inr ⟨hb, _, _, e, hw⟩)
    exact ⟨_, pack e1 e2 ((d2 he hf).2.1 hb hl _ _ e hw), _, rfl⟩
  | text he hf ht hm =>
    have hx : IsText s := by
      obtain ⟨g1, neg, g2⟩ := textLeft ht
      refine ⟨fun g => ?_, fun neg n rest g => ?_⟩
      · rcases g with g | g | g
        · rw [he] at g; cases g
        · rw [hf] at g; cases g
        · refine g1 ?_
          exact drop_nil g
      · have := (C60_iread s.buf n rest).2 ⟨neg, g⟩
        unfold iread at this
        rw [g2] at this
        cases this
    obtain ⟨e1, e2, _⟩ := c3 hx fun g => hm g.1 g.2
    refine ⟨_, pack e1 e2 ((d2 he hf).2.2 _ ht ?_), _, rfl⟩
    cases hb : T.base.signed
    · exact Or.inr (Or.inr (hm hb))
    · exact Or.inl rfl

omit [Arch] in
/-- the value afterwards is the old one, or does not depend on it -/
private theorem reads_old {B : ITy} {old : Int} {s t : IStream} {b : Bool} {v : Int} (h : Reads B old s b v t) :
    (∀ o, Reads B o s b v t) ∨ (v = old ∧ ∀ o, Reads B o s b o t) := by
  cases h with
  | number a b c d e => exact Or.inl fun _ => .number a b c d e
  | far a b c d e => exact Or.inl fun _ => .far a b c d e
  | dead a => exact Or.inr ⟨rfl, fun _ => .dead a⟩
  | ended a b c => exact Or.inr ⟨rfl, fun _ => .ended a b c⟩
  | minus a b c d e => exact Or.inr ⟨rfl, fun _ => .minus a b c d e⟩
  | text a b c d => exact Or.inl fun _ => .text a b c d

private theorem reads_unique_in {B : ITy} (hB : B.Ok) (hl : B.lg ≠ 0) {old : Int} (ho : B.In old) {s t1 t2 : IStream} {b1 b2 : Bool}
    {v1 v2 : Int} (h1 : Reads B old s b1 v1 t1) (h2 : Reads B old s b2 v2 t2) : b1 = b2 ∧ v1 = v2 ∧ t1 = t2 := by
  have hT : (Opd.ofSafe B).Wf := ⟨hB, B.in_min, B.in_max, B.min_le_max, nofun, nofun⟩
  obtain ⟨o1, e1, m1⟩ := reads_input (p := strictException) rfl hT hl rfl rfl ho h1
  obtain ⟨o2, e2, m2⟩ := reads_input (p := strictException) rfl hT hl rfl rfl ho h2
  rw [e1] at e2
  cases e2
  refine ⟨?_, rfl, rfl⟩
  cases b1 <;> cases b2
  · rfl
  · obtain ⟨e, rfl⟩ := m1; cases m2
  · obtain ⟨e, rfl⟩ := m2; cases m1
  · rfl

/-- reading is deterministic -/
private theorem reads_unique {B : ITy} (hB : B.Ok) (hl : B.lg ≠ 0) {old : Int} {s t1 t2 : IStream} {b1 b2 : Bool}
    {v1 v2 : Int} (h1 : Reads B old s b1 v1 t1) (h2 : Reads B old s b2 v2 t2) : b1 = b2 ∧ v1 = v2 ∧ t1 = t2 := by
  have i0 := B.in_zero
  have i1 : B.In 1 := B.in_small (by decide) (by decide)
  rcases reads_old h1 with g1 | ⟨rfl, g1⟩ <;> rcases reads_old h2 with g2 | ⟨e2, g2⟩
  · exact reads_unique_in hB hl i0 (g1 0) (g2 0)
  · have := (reads_unique_in hB hl i0 (g1 0) (g2 0)).2.1
    have := (reads_unique_in hB hl i1 (g1 1) (g2 1)).2.1
    omega
  · have := (reads_unique_in hB hl i0 (g1 0) (g2 0)).2.1
    have := (reads_unique_in hB hl i1 (g1 1) (g2 1)).2.1
    omega
  · obtain ⟨k1, _, k3⟩ := reads_unique_in hB hl i0 (g1 0) (g2 0)
    exact ⟨k1, e2.symm, k3⟩

/-- a statement that reads -/
private theorem input_ends {N : Names} (hN : Careful N) {n : Nat} {Γ : Fin n → PTy N} (hΓ : GoodVars Γ) {i : Fin n}
    (hp : SCovered Γ (.input i)) {s : LState n} (hs : Ranged Γ s.st) (f : Nat) {b : Bool} {v : Int} {t : IStream}
    (h : Reads (Γ i).opd.base (s.st i) s.inp b v t) :
    ∃ o s', (LStmt.input i).exec Γ (f + 1) s = some (o, s') ∧ ((Matches b o ∧ seen s' = (seen s).read i v t) ∨ o = .fault .illFormed) := by
  obtain ⟨c1, c2, c3, c4⟩ := hp
  have hsafe : (Γ i).opd.kind = .safe := (hΓ i).2.resolve_left (isSafe_kind c1)
  have hT := (hΓ i).1.1
  have e : inputStep (Γ i) (s.st i) s.inp = Verif.input (Γ i).ep (Γ i).opd (s.st i) s.inp := by
    unfold inputStep; rw [c1, if_pos rfl]
  refine ⟨_, _, rfl, ?_⟩
  rw [e]
  rcases ep_careful hN ((hΓ i).1.2.2.1 hsafe).2 with hp | hp
  · obtain ⟨o, h1, h2⟩ := reads_input hp hT c2 c3 c4 (hs i) h
    rw [h1]
    exact Or.inl ⟨h2, rfl⟩
  · unfold Verif.input
    rw [inputStatic_trap hp hT]
    exact Or.inr rfl

/-- how such a statement ends; the streams play no role -/
private theorem basic_ends {N : Names} (hN : Careful N) {n : Nat} {Γ : Fin n → PTy N} (hΓ : GoodVars Γ) {p : LStmt N n}
    (hb : Basic p) (hp : SCovered Γ p) {s : LState n} (hs : Ranged Γ s.st) (f : Nat) :
    ∃ o s', p.exec Γ (f + 1) s = some (o, s') ∧
      ((o = .ret () ∧ SFits Γ 1 p (abst s) ∧ (∃ t, iexec 1 p (abst s) = some (some t) ∧ seen s' = (seen s).put t)) ∨
       ((∃ e, o = .thrown e) ∧ ¬ SFits Γ 1 p (abst s) ∧ s' = s) ∨ o = .fault .illFormed) := by
  have e1 : p.exec Γ (f + 1) s = p.exec Γ 1 s := by cases p <;> first | exact hb.elim | rfl
  rw [e1]
  obtain ⟨o, s', h⟩ : ∃ o s', p.exec Γ 1 s = some (o, s') := by
    cases p <;> first | exact hb.elim | exact ⟨_, _, rfl⟩ | skip
    simp only [LStmt.exec]
    split <;> exact ⟨_, _, rfl⟩
  refine ⟨o, s', h, ?_⟩
  obtain ⟨k1, k2, _, k4⟩ := exec_fine hN hΓ 1 p s o s' hp hs h
  have hk : s'.caught = s.caught ∧ s'.inp = s.inp := by
    cases p <;> first | exact hb.elim | skip
    all_goals simp only [LStmt.exec] at h
    · cases h; exact ⟨rfl, rfl⟩
    · rcases hx : assignVal Γ s.st _ _ with v | x | k <;> rw [hx] at h <;> cases h <;> exact ⟨rfl, rfl⟩
    · rcases hx : opAssignVal Γ s.st _ _ _ with v | x | k <;> rw [hx] at h <;> cases h <;> exact ⟨rfl, rfl⟩
    · rcases hx : opAssignVal Γ s.st _ _ _ with v | x | k <;> rw [hx] at h <;> cases h <;> exact ⟨rfl, rfl⟩
    · rcases hx : opAssignVal Γ s.st _ _ _ with v | x | k <;> rw [hx] at h <;> cases h <;> exact ⟨rfl, rfl⟩
    · split at h <;> cases h <;> exact ⟨rfl, rfl⟩
  rcases k1 with rfl | ⟨x, rfl⟩ | rfl
  · exact Or.inl ⟨rfl, C71_fits_partial hN Γ hΓ 1 p s s' hp hs h hk.1, _, k4 rfl hk.1, by unfold seen RState.put; rw [hk.2]; rfl⟩
  · refine Or.inr (Or.inl ⟨⟨x, rfl⟩, fun hf => ?_, ?_⟩)
    · have h' : ∃ s2, p.exec Γ 1 { s with inp := ⟨[], false, false⟩ } = some (.thrown x, s2) := by
        cases p <;> first | exact hb.elim | skip
        all_goals simp only [LStmt.exec] at h ⊢
        · cases h
        · rcases hx : assignVal Γ s.st _ _ with v | x | k <;> rw [hx] at h <;> cases h
          exact ⟨_, rfl⟩
        · rcases hx : opAssignVal Γ s.st _ _ _ with v | x | k <;> rw [hx] at h <;> cases h
          exact ⟨_, rfl⟩
        · rcases hx : opAssignVal Γ s.st _ _ _ with v | x | k <;> rw [hx] at h <;> cases h
          exact ⟨_, rfl⟩
        · rcases hx : opAssignVal Γ s.st _ _ _ with v | x | k <;> rw [hx] at h <;> cases h
          exact ⟨_, rfl⟩
        · split at h
          · cases h
          · cases h
            exact ⟨_, rfl⟩
          · cases h
      have hf' : SFits Γ 1 p (abst { s with inp := ⟨[], false, false⟩ }) := by
        cases p <;> first | exact hb.elim | exact hf
      obtain ⟨s2, h'⟩ := h'
      rcases C66_program_partial hN Γ hΓ 1 p { s with inp := ⟨[], false, false⟩ } hp hs ⟨rfl, nofun⟩ hf' with
        ⟨h1, _⟩ | ⟨s1, h1, _⟩ | ⟨s1, h1⟩ <;> rw [h'] at h1 <;> cases h1
    · cases p <;> first | exact hb.elim | skip
      all_goals simp only [LStmt.exec] at h
      · cases h
      · rcases hx : assignVal Γ s.st _ _ with v | x | k <;> rw [hx] at h <;> cases h; rfl
      · rcases hx : opAssignVal Γ s.st _ _ _ with v | x | k <;> rw [hx] at h <;> cases h; rfl
      · rcases hx : opAssignVal Γ s.st _ _ _ with v | x | k <;> rw [hx] at h <;> cases h; rfl
      · rcases hx : opAssignVal Γ s.st _ _ _ with v | x | k <;> rw [hx] at h <;> cases h; rfl
      · split at h <;> cases h; rfl
  · exact Or.inr (Or.inr rfl)

/-- the ways a condition can end -/
private theorem cond_ends {N : Names} (hN : Careful N) {n : Nat} {Γ : Fin n → PTy N} (hΓ : GoodVars Γ) {s : Fin n → Int}
    (hs : Ranged Γ s) {c : LCond N n} (hc : CCovered Γ c) :
    (∃ b, c.eval Γ s = .ret b ∧ CFits Γ s c ∧ icond s c = some b) ∨ (∃ e, c.eval Γ s = .thrown e ∧ ¬ CFits Γ s c) ∨
      c.eval Γ s = .fault .illFormed := by
  rcases cond_good hN hΓ hs c hc with ⟨b, h1, h2⟩ | ⟨e, h1⟩ | h1
  · exact Or.inl ⟨b, h1, ((C71_cond_partial hN Γ hΓ s hs c hc (by rw [h1]; nofun)).2).1 ⟨b, h1⟩, h2⟩
  · exact Or.inr (Or.inl ⟨e, h1, ((C71_cond_partial hN Γ hΓ s hs c hc (by rw [h1]; nofun)).1).1 ⟨e, h1⟩⟩)
  · exact Or.inr (Or.inr h1)

/-! ### from executions to the integers -/

/-- Every finished execution of an accepted covered program is a run over the integers, with the
same variables and output: it ends normally if the run does, and by an exception if the run does. Exceptions may be caught on
the way, any number of times. -/
theorem C98_exec_partial {N : Names} (hN : Careful N) {n : Nat} (Γ : Fin n → PTy N) (hΓ : GoodVars Γ) :
    ∀ (f : Nat) (p : LStmt N n) (s s' : LState n) (o : Out Unit), SCovered Γ p → Ranged Γ s.st →
      p.exec Γ f s = some (o, s') →
      (∃ b, Matches b o ∧ Runs Γ p (seen s) b (seen s')) ∨ o = .fault .illFormed
  | 0, p, s, s', o, _, _, h => by cases p <;> cases h
  | f + 1, p, s, s', o, hp, hs, h => by
    have basic : Basic p → (∃ b, Matches b o ∧ Runs Γ p (seen s) b (seen s')) ∨ o = .fault .illFormed := fun hb => by
      obtain ⟨o1, s1, h1, h2⟩ := basic_ends hN hΓ hb hp hs f
      rw [h] at h1; cases h1
      rcases h2 with ⟨ho, h3, t, h4, e⟩ | ⟨ho, h3, rfl⟩ | ho
      · exact Or.inl ⟨true, ho, by rw [e]; exact .basic hb h3 h4⟩
      · exact Or.inl ⟨false, ho, .basicExc hb h3⟩
      · exact Or.inr ho
    cases p with
    | skip => exact basic trivial
    | assign i e => exact basic trivial
    | opAssign op i e => exact basic trivial
    | inc i => exact basic trivial
    | dec i => exact basic trivial
    | output e => exact basic trivial
    | input i =>
      obtain ⟨b, v, t, hr⟩ := reads_total (Γ i).opd.base (s.st i) s.inp
      obtain ⟨o1, s1, h1, h2⟩ := input_ends hN hΓ hp hs f hr
      rw [h] at h1; cases h1
      rcases h2 with ⟨m, e⟩ | ho
      · exact Or.inl ⟨b, m, by rw [e]; exact .input hr⟩
      · exact Or.inr ho
    | seq a b =>
      simp only [LStmt.exec] at h
      rcases ha : a.exec Γ f s with _ | ⟨o1, s1⟩ <;> rw [ha] at h
      · cases h
      · have k2 := (exec_fine hN hΓ f a s o1 s1 hp.1 hs ha).2.1
        rcases C98_exec_partial hN Γ hΓ f a s s1 o1 hp.1 hs ha with ⟨x, m, r⟩ | rfl
        · cases x
          · obtain ⟨e, rfl⟩ := m
            cases h
            exact Or.inl ⟨false, ⟨e, rfl⟩, .seqExc r⟩
          · cases m
            rcases C98_exec_partial hN Γ hΓ f b s1 s' o hp.2 k2 h with ⟨y, m, r'⟩ | rfl
            · exact Or.inl ⟨y, m, .seq r r'⟩
            · exact Or.inr rfl
        · cases h; exact Or.inr rfl
    | ite c a b =>
      simp only [LStmt.exec] at h
      rcases cond_ends hN hΓ hs hp.1 with ⟨x, h1, h2, h3⟩ | ⟨e, h1, h2⟩ | h1 <;> rw [h1] at h
      · cases x
        · rcases C98_exec_partial hN Γ hΓ f b s s' o hp.2.2 hs h with ⟨y, m, r⟩ | rfl
          · exact Or.inl ⟨y, m, .iteFalse h2 h3 r⟩
          · exact Or.inr rfl
        · rcases C98_exec_partial hN Γ hΓ f a s s' o hp.2.1 hs h with ⟨y, m, r⟩ | rfl
          · exact Or.inl ⟨y, m, .iteTrue h2 h3 r⟩
          · exact Or.inr rfl
      · cases h; exact Or.inl ⟨false, ⟨e, rfl⟩, .iteExc h2⟩
      · cases h; exact Or.inr rfl
    | «while» c a =>
      simp only [LStmt.exec] at h
      rcases cond_ends hN hΓ hs hp.1 with ⟨x, h1, h2, h3⟩ | ⟨e, h1, h2⟩ | h1 <;> rw [h1] at h
      · cases x
        · cases h; exact Or.inl ⟨true, rfl, .whileFalse h2 h3⟩
        · dsimp only at h
          rcases ha : a.exec Γ f s with _ | ⟨o1, s1⟩ <;> rw [ha] at h
          · cases h
          · have k2 := (exec_fine hN hΓ f a s o1 s1 hp.2 hs ha).2.1
            rcases C98_exec_partial hN Γ hΓ f a s s1 o1 hp.2 hs ha with ⟨x, m, r⟩ | rfl
            · cases x
              · obtain ⟨e, rfl⟩ := m
                cases h
                exact Or.inl ⟨false, ⟨e, rfl⟩, .whileBody h2 h3 r⟩
              · cases m
                rcases C98_exec_partial hN Γ hΓ f (.while c a) s1 s' o hp k2 h with ⟨y, m, r'⟩ | rfl
                · exact Or.inl ⟨y, m, .whileTrue h2 h3 r r'⟩
                · exact Or.inr rfl
            · cases h; exact Or.inr rfl
      · cases h; exact Or.inl ⟨false, ⟨e, rfl⟩, .whileExc h2⟩
      · cases h; exact Or.inr rfl
    | tryCatch a b =>
      simp only [LStmt.exec] at h
      rcases ha : a.exec Γ f s with _ | ⟨o1, s1⟩ <;> rw [ha] at h
      · cases h
      · have k2 := (exec_fine hN hΓ f a s o1 s1 hp.1 hs ha).2.1
        rcases C98_exec_partial hN Γ hΓ f a s s1 o1 hp.1 hs ha with ⟨x, m, r⟩ | rfl
        · cases x
          · obtain ⟨e, rfl⟩ := m
            rcases C98_exec_partial hN Γ hΓ f b { s1 with caught := s1.caught + 1 } s' o hp.2 k2 h with ⟨y, m, r'⟩ | rfl
            · exact Or.inl ⟨y, m, .catch r r'⟩
            · exact Or.inr rfl
          · cases m
            cases h
            exact Or.inl ⟨true, rfl, .try r⟩
        · cases h; exact Or.inr rfl

/-! ### from the integers to executions -/

/-- Conversely every run over the integers from a state within the ranges is an execution: the program ends, in the same state
and in the same way, unless it does not compile. -/
theorem C98_runs_partial {N : Names} (hN : Careful N) {n : Nat} (Γ : Fin n → PTy N) (hΓ : GoodVars Γ) (p : LStmt N n)
    (t t' : RState n) (b : Bool) (h : Runs Γ p t b t') : SCovered Γ p → ∀ s : LState n, seen s = t → Ranged Γ s.st →
      ∃ f o s', p.exec Γ f s = some (o, s') ∧ Ranged Γ s'.st ∧ ((Matches b o ∧ seen s' = t') ∨ o = .fault .illFormed) := by
  induction h with
  | @basic p t t' hb h1 h2 =>
    rintro hp s rfl hs
    obtain ⟨o, s1, h3, h4⟩ := basic_ends hN hΓ hb hp hs 0
    have k2 := (exec_fine hN hΓ 1 p s o s1 hp hs h3).2.1
    refine ⟨1, o, s1, h3, k2, ?_⟩
    rcases h4 with ⟨ho, _, t, h5, e⟩ | ⟨_, h5, _⟩ | ho
    · have h2 : iexec 1 p (abst s) = _ := h2
      rw [h2] at h5; cases h5; exact Or.inl ⟨ho, e⟩
    · exact absurd h1 h5
    · exact Or.inr ho
  | @basicExc p t hb h1 =>
    rintro hp s rfl hs
    obtain ⟨o, s1, h3, h4⟩ := basic_ends hN hΓ hb hp hs 0
    have k2 := (exec_fine hN hΓ 1 p s o s1 hp hs h3).2.1
    refine ⟨1, o, s1, h3, k2, ?_⟩
    rcases h4 with ⟨_, h5, _⟩ | ⟨ho, _, rfl⟩ | ho
    · exact absurd h5 h1
    · exact Or.inl ⟨ho, rfl⟩
    · exact Or.inr ho
  | @input i t r v t' h1 =>
    rintro hp s rfl hs
    obtain ⟨o, s1, h3, h4⟩ := input_ends hN hΓ hp hs 0 h1
    have k2 := (exec_fine hN hΓ 1 _ s o s1 hp hs h3).2.1
    exact ⟨1, o, s1, h3, k2, h4⟩
  | @seq a t t1 b r t' h1 h2 ih1 ih2 =>
    rintro hp s rfl hs
    obtain ⟨f, o, s1, e1, k1, h | rfl⟩ := ih1 hp.1 s rfl hs
    · obtain ⟨rfl, rfl⟩ := h
      obtain ⟨g, o, s', e2, k2, h⟩ := ih2 hp.2 s1 rfl k1
      refine ⟨max f g + 1, o, s', ?_, k2, h⟩
      simp only [LStmt.exec]
      rw [C59_bound Γ f a s _ e1 _ (le_max_left f g)]
      exact C59_bound Γ g b s1 _ e2 _ (le_max_right f g)
    · exact ⟨f + 1, _, s1, by simp only [LStmt.exec]; rw [e1], k1, Or.inr rfl⟩
  | @seqExc a t t1 b h1 ih1 =>
    rintro hp s rfl hs
    obtain ⟨f, o, s1, e1, k1, h | rfl⟩ := ih1 hp.1 s rfl hs
    · obtain ⟨⟨e, rfl⟩, rfl⟩ := h
      exact ⟨f + 1, _, s1, by simp only [LStmt.exec]; rw [e1], k1, Or.inl ⟨⟨e, rfl⟩, rfl⟩⟩
    · exact ⟨f + 1, _, s1, by simp only [LStmt.exec]; rw [e1], k1, Or.inr rfl⟩
  | @iteTrue t c a r t' b h1 h2 h3 ih =>
    rintro hp s rfl hs
    rcases cond_ends hN hΓ hs hp.1 with ⟨x, g1, g2, g3⟩ | ⟨e, g1, g2⟩ | g1
    · cases h2.symm.trans g3
      obtain ⟨f, o, s1, e1, k1, h⟩ := ih hp.2.1 s rfl hs
      exact ⟨f + 1, o, s1, by simp only [LStmt.exec]; rw [g1]; exact e1, k1, h⟩
    · exact absurd h1 g2
    · exact ⟨1, _, s, by simp only [LStmt.exec]; rw [g1], hs, Or.inr rfl⟩
  | @iteFalse t c b r t' a h1 h2 h3 ih =>
    rintro hp s rfl hs
    rcases cond_ends hN hΓ hs hp.1 with ⟨x, g1, g2, g3⟩ | ⟨e, g1, g2⟩ | g1
    · cases h2.symm.trans g3
      obtain ⟨f, o, s1, e1, k1, h⟩ := ih hp.2.2 s rfl hs
      exact ⟨f + 1, o, s1, by simp only [LStmt.exec]; rw [g1]; exact e1, k1, h⟩
    · exact absurd h1 g2
    · exact ⟨1, _, s, by simp only [LStmt.exec]; rw [g1], hs, Or.inr rfl⟩
  | @iteExc t c a b h1 =>
    rintro hp s rfl hs
    rcases cond_ends hN hΓ hs hp.1 with ⟨x, g1, g2, g3⟩ | ⟨e, g1, g2⟩ | g1
    · exact absurd g2 h1
    · exact ⟨1, _, s, by simp only [LStmt.exec]; rw [g1], hs, Or.inl ⟨⟨e, rfl⟩, rfl⟩⟩
    · exact ⟨1, _, s, by simp only [LStmt.exec]; rw [g1], hs, Or.inr rfl⟩
  | @whileTrue t c a t1 r t' h1 h2 h3 h4 ih1 ih2 =>
    rintro hp s rfl hs
    rcases cond_ends hN hΓ hs hp.1 with ⟨x, g1, g2, g3⟩ | ⟨e, g1, g2⟩ | g1
    · cases h2.symm.trans g3
      obtain ⟨f, o, s1, e1, k1, h | rfl⟩ := ih1 hp.2 s rfl hs
      · obtain ⟨rfl, rfl⟩ := h
        obtain ⟨g, o, s', e2, k2, h⟩ := ih2 hp s1 rfl k1
        refine ⟨max f g + 1, o, s', ?_, k2, h⟩
        simp only [LStmt.exec]
        rw [g1]
        dsimp only
        rw [C59_bound Γ f _ s _ e1 _ (le_max_left f g)]
        exact C59_bound Γ g _ s1 _ e2 _ (le_max_right f g)
      · exact ⟨f + 1, _, s1, by simp only [LStmt.exec]; rw [g1]; dsimp only; rw [e1], k1, Or.inr rfl⟩
    · exact absurd h1 g2
    · exact ⟨1, _, s, by simp only [LStmt.exec]; rw [g1], hs, Or.inr rfl⟩
  | @whileBody t c a t1 h1 h2 h3 ih =>
    rintro hp s rfl hs
    rcases cond_ends hN hΓ hs hp.1 with ⟨x, g1, g2, g3⟩ | ⟨e, g1, g2⟩ | g1
    · cases h2.symm.trans g3
      obtain ⟨f, o, s1, e1, k1, h | rfl⟩ := ih hp.2 s rfl hs
      · obtain ⟨⟨e, rfl⟩, rfl⟩ := h
        exact ⟨f + 1, _, s1, by simp only [LStmt.exec]; rw [g1]; dsimp only; rw [e1], k1, Or.inl ⟨⟨e, rfl⟩, rfl⟩⟩
      · exact ⟨f + 1, _, s1, by simp only [LStmt.exec]; rw [g1]; dsimp only; rw [e1], k1, Or.inr rfl⟩
    · exact absurd h1 g2
    · exact ⟨1, _, s, by simp only [LStmt.exec]; rw [g1], hs, Or.inr rfl⟩
  | @whileFalse t c a h1 h2 =>
    rintro hp s rfl hs
    rcases cond_ends hN hΓ hs hp.1 with ⟨x, g1, g2, g3⟩ | ⟨e, g1, g2⟩ | g1
    · cases h2.symm.trans g3
      exact ⟨1, _, s, by simp only [LStmt.exec]; rw [g1], hs, Or.inl ⟨rfl, rfl⟩⟩
    · exact absurd h1 g2
    · exact ⟨1, _, s, by simp only [LStmt.exec]; rw [g1], hs, Or.inr rfl⟩
  | @whileExc t c a h1 =>
    rintro hp s rfl hs
    rcases cond_ends hN hΓ hs hp.1 with ⟨x, g1, g2, g3⟩ | ⟨e, g1, g2⟩ | g1
    · exact absurd g2 h1
    · exact ⟨1, _, s, by simp only [LStmt.exec]; rw [g1], hs, Or.inl ⟨⟨e, rfl⟩, rfl⟩⟩
    · exact ⟨1, _, s, by simp only [LStmt.exec]; rw [g1], hs, Or.inr rfl⟩
  | «try» h1 ih =>
    rintro hp s rfl hs
    obtain ⟨f, o, s1, e1, k1, h | rfl⟩ := ih hp.1 s rfl hs
    · obtain ⟨rfl, rfl⟩ := h
      exact ⟨f + 1, _, s1, by simp only [LStmt.exec]; rw [e1], k1, Or.inl ⟨rfl, rfl⟩⟩
    · exact ⟨f + 1, _, s1, by simp only [LStmt.exec]; rw [e1], k1, Or.inr rfl⟩
  | @«catch» a _ _ b _ _ h1 h2 ih1 ih2 =>
    rintro hp s rfl hs
    obtain ⟨f, o, s1, e1, k1, h | rfl⟩ := ih1 hp.1 s rfl hs
    · obtain ⟨⟨e, rfl⟩, rfl⟩ := h
      obtain ⟨g, o, s', e2, k2, h⟩ := ih2 hp.2 { s1 with caught := s1.caught + 1 } rfl k1
      refine ⟨max f g + 1, o, s', ?_, k2, h⟩
      simp only [LStmt.exec]
      rw [C59_bound Γ f a s _ e1 _ (le_max_left f g)]
      exact C59_bound Γ g b _ _ e2 _ (le_max_right f g)
    · exact ⟨f + 1, _, s1, by simp only [LStmt.exec]; rw [e1], k1, Or.inr rfl⟩

/-- A program has at most one run from a state. -/
theorem C98_unique {N : Names} {n : Nat} (Γ : Fin n → PTy N) (hΓ : GoodVars Γ) (p : LStmt N n) (s : RState n) (b1 b2 : Bool) (s1 s2 : RState n)
    (hp : SCovered Γ p) (h1 : Runs Γ p s b1 s1) (h2 : Runs Γ p s b2 s2) : b1 = b2 ∧ s1 = s2 := by
  induction h1 generalizing b2 s2 with
  | basic hb g1 g2 =>
    cases h2 <;> first | exact hb.elim | skip
    · rename_i k1 k2 k3; rw [g2] at k3; cases k3; exact ⟨rfl, rfl⟩
    · contradiction
  | basicExc hb g1 =>
    cases h2 <;> first | exact hb.elim | skip
    · contradiction
    · exact ⟨rfl, rfl⟩
  | input g1 =>
    cases h2 with
    | basic hb => exact hb.elim
    | basicExc hb => exact hb.elim
    | input k1 =>
      obtain ⟨rfl, rfl, rfl⟩ := reads_unique (hΓ _).1.1.1 hp.2.1 g1 k1
      exact ⟨rfl, rfl⟩
  | seq _ _ ih1 ih2 =>
    cases h2 with
    | basic hb => exact hb.elim
    | basicExc hb => exact hb.elim
    | seq k1 k2 => obtain ⟨_, rfl⟩ := ih1 _ _ hp.1 k1; exact ih2 _ _ hp.2 k2
    | seqExc k1 => cases (ih1 _ _ hp.1 k1).1
  | seqExc _ ih1 =>
    cases h2 with
    | basic hb => exact hb.elim
    | basicExc hb => exact hb.elim
    | seq k1 k2 => cases (ih1 _ _ hp.1 k1).1
    | seqExc k1 => exact ih1 _ _ hp.1 k1
  | iteTrue c1 c2 _ ih =>
    cases h2 with
    | basic hb => exact hb.elim
    | basicExc hb => exact hb.elim
    | iteTrue _ _ k => exact ih _ _ hp.2.1 k
    | iteFalse _ d => rw [c2] at d; cases d
    | iteExc d => exact absurd c1 d
  | iteFalse c1 c2 _ ih =>
    cases h2 with
    | basic hb => exact hb.elim
    | basicExc hb => exact hb.elim
    | iteTrue _ d => rw [c2] at d; cases d
    | iteFalse _ _ k => exact ih _ _ hp.2.2 k
    | iteExc d => exact absurd c1 d
  | iteExc c1 =>
    cases h2 with
    | basic hb => exact hb.elim
    | basicExc hb => exact hb.elim
    | iteTrue d => exact absurd d c1
    | iteFalse d => exact absurd d c1
    | iteExc d => exact ⟨rfl, rfl⟩
  | whileTrue c1 c2 _ _ ih1 ih2 =>
    cases h2 with
    | basic hb => exact hb.elim
    | basicExc hb => exact hb.elim
    | whileTrue _ _ k1 k2 => obtain ⟨_, rfl⟩ := ih1 _ _ hp.2 k1; exact ih2 _ _ hp k2
    | whileBody _ _ k1 => cases (ih1 _ _ hp.2 k1).1
    | whileFalse _ d => rw [c2] at d; cases d
    | whileExc d => exact absurd c1 d
  | whileBody c1 c2 _ ih1 =>
    cases h2 with
    | basic hb => exact hb.elim
    | basicExc hb => exact hb.elim
    | whileTrue _ _ k1 k2 => cases (ih1 _ _ hp.2 k1).1
    | whileBody _ _ k1 => exact ih1 _ _ hp.2 k1
    | whileFalse _ d => rw [c2] at d; cases d
    | whileExc d => exact absurd c1 d
  | whileFalse c1 c2 =>
    cases h2 with
    | basic hb => exact hb.elim
    | basicExc hb => exact hb.elim
    | whileTrue _ d => rw [c2] at d; cases d
    | whileBody _ d => rw [c2] at d; cases d
    | whileFalse _ d => exact ⟨rfl, rfl⟩
    | whileExc d => exact absurd c1 d
  | whileExc c1 =>
    cases h2 with
    | basic hb => exact hb.elim
    | basicExc hb => exact hb.elim
    | whileTrue d => exact absurd d c1
    | whileBody d => exact absurd d c1
    | whileFalse d => exact absurd d c1
    | whileExc d => exact ⟨rfl, rfl⟩
  | «try» _ ih =>
    cases h2 with
    | basic hb => exact hb.elim
    | basicExc hb => exact hb.elim
    | «try» k => exact ih _ _ hp.1 k
    | «catch» k => cases (ih _ _ hp.1 k).1
  | «catch» _ _ ih1 ih2 =>
    cases h2 with
    | basic hb => exact hb.elim
    | basicExc hb => exact hb.elim
    | «try» k => cases (ih1 _ _ hp.1 k).1
    | «catch» k1 k2 => obtain ⟨_, rfl⟩ := ih1 _ _ hp.1 k1; exact ih2 _ _ hp.2 k2

/-! ### the logic -/

/-- what a triple means over the integers -/
private def Valid {N : Names} {n : Nat} (Γ : Fin n → PTy N) (P : RState n → Prop) (p : LStmt N n) (Q E : RState n → Prop) : Prop :=
  ∀ s b s', P s → Runs Γ p s b s' → if b then Q s' else E s'

private theorem sound {N : Names} {n : Nat} {Γ : Fin n → PTy N} {P Q E : RState n → Prop} {p : LStmt N n}
    (h : Hoare Γ P p Q E) : Valid Γ P p Q E := by
  induction h with
  | @basic p Q E hb =>
    intro s b s' hP hr
    cases hr <;> first | exact hb.elim | skip
    · rename_i g1 g2 g3; exact hP.1 g2 _ g3
    · rename_i g1 g2; exact hP.2 g2
  | input =>
    intro s b s' hP hr
    cases hr with
    | basic hb => exact hb.elim
    | basicExc hb => exact hb.elim
    | input k => exact hP _ _ _ k
  | seq _ _ ih1 ih2 =>
    intro s b s' hP hr
    cases hr with
    | basic hb => exact hb.elim
    | basicExc hb => exact hb.elim
    | seq k1 k2 => exact ih2 _ _ _ (ih1 _ _ _ hP k1) k2
    | seqExc k1 => exact ih1 _ _ _ hP k1
  | ite _ _ ih1 ih2 =>
    intro s b s' hP hr
    cases hr with
    | basic hb => exact hb.elim
    | basicExc hb => exact hb.elim
    | iteTrue c1 c2 k => exact ih1 _ _ _ ⟨hP.1, c1, c2⟩ k
    | iteFalse c1 c2 k => exact ih2 _ _ _ ⟨hP.1, c1, c2⟩ k
    | iteExc c1 => exact hP.2 c1
  | @«while» a I E c _ ih =>
    intro s b s' hP hr
    generalize hw : LStmt.while c a = w at hr
    induction hr with
    | basic hb => subst hw; exact hb.elim
    | basicExc hb => subst hw; exact hb.elim
    | whileTrue c1 c2 k1 k2 _ ih2 =>
      cases hw
      exact ih2 (ih _ _ _ ⟨hP.1, c1, c2⟩ k1) rfl
    | whileBody c1 c2 k1 =>
      cases hw
      exact ih _ _ _ ⟨hP.1, c1, c2⟩ k1
    | whileFalse c1 c2 => cases hw; exact ⟨hP.1, c1, c2⟩
    | whileExc c1 => cases hw; exact hP.2 c1
    | _ => cases hw
  | tryCatch _ _ ih1 ih2 =>
    intro s b s' hP hr
    cases hr with
    | basic hb => exact hb.elim
    | basicExc hb => exact hb.elim
    | «try» k => exact ih1 _ _ _ hP k
    | «catch» k1 k2 => exact ih2 _ _ _ (ih1 _ _ _ hP k1) k2
  | conseq hP' _ hQ hE ih =>
    intro s b s' hP hr
    have := ih _ _ _ (hP' _ hP) hr
    cases b
    · exact hE _ this
    · exact hQ _ this

/-- the weakest precondition -/
private def wp {N : Names} {n : Nat} (Γ : Fin n → PTy N) (p : LStmt N n) (Q E : RState n → Prop) (s : RState n) : Prop :=
  ∀ b s', Runs Γ p s b s' → if b then Q s' else E s'

private theorem wp_hoare {N : Names} {n : Nat} (Γ : Fin n → PTy N) : ∀ (p : LStmt N n) (Q E : RState n → Prop),
    Hoare Γ (wp Γ p Q E) p Q E
  | p, Q, E => by
    have basic : Basic p → Hoare Γ (wp Γ p Q E) p Q E := fun hb =>
      .conseq (fun s h => ⟨fun h1 t h2 => h true _ (.basic hb h1 h2), fun h1 => h false s (.basicExc hb h1)⟩) (.basic hb)
        (fun _ h => h) (fun _ h => h)
    cases p with
    | skip => exact basic trivial
    | assign i e => exact basic trivial
    | opAssign op i e => exact basic trivial
    | inc i => exact basic trivial
    | dec i => exact basic trivial
    | output e => exact basic trivial
    | input i => exact .conseq (fun s h b v t r => h b _ (.input r)) .input (fun _ h => h) (fun _ h => h)
    | seq a b =>
      refine .seq (.conseq (fun s h => ?_) (wp_hoare Γ a (wp Γ b Q E) E) (fun _ h => h) (fun _ h => h)) (wp_hoare Γ b Q E)
      intro x s1 r
      cases x
      · exact h false s1 (.seqExc r)
      · exact fun y s2 r2 => h y s2 (.seq r r2)
    | ite c a b =>
      refine .conseq (P := fun s => wp Γ (.ite c a b) Q E s ∧ (¬ CFits Γ s.st c → E s))
        (fun s h => ⟨h, fun h1 => h false s (.iteExc h1)⟩) (.ite ?_ ?_) (fun _ h => h) (fun _ h => h)
      · exact .conseq (fun s h x s1 r => h.1 x s1 (.iteTrue h.2.1 h.2.2 r)) (wp_hoare Γ a Q E) (fun _ h => h) (fun _ h => h)
      · exact .conseq (fun s h x s1 r => h.1 x s1 (.iteFalse h.2.1 h.2.2 r)) (wp_hoare Γ b Q E) (fun _ h => h) (fun _ h => h)
    | «while» c a =>
      refine .conseq (P := fun s => wp Γ (.while c a) Q E s ∧ (¬ CFits Γ s.st c → E s))
        (fun s h => ⟨h, fun h1 => h false s (.whileExc h1)⟩) (.while ?_) (fun s h => h.1 true s (.whileFalse h.2.1 h.2.2)) (fun _ h => h)
      refine .conseq (fun s h => ?_) (wp_hoare Γ a (fun s => wp Γ (.while c a) Q E s ∧ (¬ CFits Γ s.st c → E s)) E)
        (fun _ h => h) (fun _ h => h)
      intro x s1 r
      cases x
      · exact h.1 false s1 (.whileBody h.2.1 h.2.2 r)
      · exact ⟨fun y s2 r2 => h.1 y s2 (.whileTrue h.2.1 h.2.2 r r2),
          fun h1 => h.1 false s1 (.whileTrue h.2.1 h.2.2 r (.whileExc h1))⟩
    | tryCatch a b =>
      refine .tryCatch (.conseq (fun s h => ?_) (wp_hoare Γ a Q (wp Γ b Q E)) (fun _ h => h) (fun _ h => h)) (wp_hoare Γ b Q E)
      intro x s1 r
      cases x
      · exact fun y s2 r2 => h y s2 (.catch r r2)
      · exact h true s1 (.try r)

/-- The logic is sound: what it derives about an accepted covered program is true of all its executions. -/
theorem C98_sound_partial {N : Names} (hN : Careful N) {n : Nat} (Γ : Fin n → PTy N) (hΓ : GoodVars Γ) (p : LStmt N n)
    (hp : SCovered Γ p) (P Q E : RState n → Prop) (h : Hoare Γ P p Q E) : Correct Γ P p Q E := by
  intro f s s' o hs hP he
  rcases C98_exec_partial hN Γ hΓ f p s s' o hp hs he with ⟨b, m, r⟩ | ho
  · have := sound h _ _ _ hP r
    cases b
    · exact Or.inr (Or.inl ⟨m, this⟩)
    · exact Or.inl ⟨m, this⟩
  · exact Or.inr (Or.inr ho)

/-- The logic is complete: what is true of all executions of a covered program and compiles can be derived,
for states within the ranges. -/
theorem C98_complete_partial {N : Names} (hN : Careful N) {n : Nat} (Γ : Fin n → PTy N) (hΓ : GoodVars Γ) (p : LStmt N n)
    (hp : SCovered Γ p) (P Q E : RState n → Prop)
    (ha : ∀ f s s' o, Ranged Γ s.st → p.exec Γ f s = some (o, s') → o ≠ .fault .illFormed) (h : Correct Γ P p Q E) :
    Hoare Γ (fun s => Ranged Γ s.st ∧ P s) p Q E := by
  refine .conseq (fun t ht b t' r => ?_) (wp_hoare Γ p Q E) (fun _ h => h) (fun _ h => h)
  obtain ⟨f, o, s', h1, _, ⟨m, rfl⟩ | h2⟩ :=
    C98_runs_partial hN Γ hΓ p t t' b r hp ⟨t.st, t.inp, t.out, 0⟩ rfl ht.1
  · rcases h f ⟨t.st, t.inp, t.out, 0⟩ s' o ht.1 ht.2 h1 with ⟨ho, h2⟩ | ⟨⟨e, ho⟩, h2⟩ | ho
    · cases b
      · obtain ⟨e, m⟩ := m; rw [ho] at m; cases m
      · exact h2
    · cases b
      · exact h2
      · rw [ho] at m; cases m
    · exact absurd ho (ha _ _ _ _ ht.1 h1)
  · exact absurd h2 (ha _ _ _ _ ht.1 h1)

/-! ### total correctness -/

private theorem sound_total {N : Names} {n : Nat} {Γ : Fin n → PTy N} {P Q E : RState n → Prop} {p : LStmt N n}
    (h : HoareT Γ P p Q E) : ∀ s, P s → ∃ b s', Runs Γ p s b s' ∧ if b then Q s' else E s' := by
  induction h with
  | @basic p Q E hb =>
    intro s hP
    by_cases hf : SFits Γ 1 p s.ints
    · obtain ⟨t, h1, h2⟩ := hP.1 hf
      exact ⟨true, _, .basic hb hf h1, h2⟩
    · exact ⟨false, s, .basicExc hb hf, hP.2 hf⟩
  | input =>
    intro s hP
    obtain ⟨b, v, t, r, h⟩ := hP
    exact ⟨b, _, .input r, h⟩
  | seq _ _ ih1 ih2 =>
    intro s hP
    obtain ⟨b, s1, r, h⟩ := ih1 s hP
    cases b
    · exact ⟨false, s1, .seqExc r, h⟩
    · obtain ⟨b, s2, r2, h⟩ := ih2 s1 h
      exact ⟨b, s2, .seq r r2, h⟩
  | @ite a b P Q E c _ _ ih1 ih2 =>
    intro s hP
    by_cases hf : CFits Γ s.st c
    · rcases hc : icond s.st c with _ | x
      · exact absurd hc (hP.2.2 hf)
      · cases x
        · obtain ⟨b, s1, r, h⟩ := ih2 s ⟨hP.1, hf, hc⟩
          exact ⟨b, s1, .iteFalse hf hc r, h⟩
        · obtain ⟨b, s1, r, h⟩ := ih1 s ⟨hP.1, hf, hc⟩
          exact ⟨b, s1, .iteTrue hf hc r, h⟩
    · exact ⟨false, s, .iteExc hf, hP.2.1 hf⟩
  | @«while» a I E c h1 _ ih =>
    rintro s ⟨k, hk⟩
    induction k using Nat.strong_induction_on generalizing s with
    | _ k ihk =>
      by_cases hf : CFits Γ s.st c
      · rcases hc : icond s.st c with _ | x
        · exact absurd hc ((h1 k s hk).2 hf)
        · cases x
          · exact ⟨true, s, .whileFalse hf hc, ⟨k, hk⟩, hf, hc⟩
          · obtain ⟨b, s1, r, h⟩ := ih k s ⟨hk, hf, hc⟩
            cases b
            · exact ⟨false, s1, .whileBody hf hc r, h⟩
            · obtain ⟨j, hj, h⟩ := h
              obtain ⟨b, s2, r2, h⟩ := ihk j hj s1 h
              exact ⟨b, s2, .whileTrue hf hc r r2, h⟩
      · exact ⟨false, s, .whileExc hf, (h1 k s hk).1 hf⟩
  | tryCatch _ _ ih1 ih2 =>
    intro s hP
    obtain ⟨b, s1, r, h⟩ := ih1 s hP
    cases b
    · obtain ⟨b, s2, r2, h⟩ := ih2 s1 h
      exact ⟨b, s2, .catch r r2, h⟩
    · exact ⟨true, s1, .try r, h⟩
  | conseq hP' _ hQ hE ih =>
    intro s hP
    obtain ⟨b, s1, r, h⟩ := ih s (hP' s hP)
    refine ⟨b, s1, r, ?_⟩
    cases b
    · exact hE _ h
    · exact hQ _ h

/-- the weakest precondition for total correctness -/
private def wpt {N : Names} {n : Nat} (Γ : Fin n → PTy N) (p : LStmt N n) (Q E : RState n → Prop) (s : RState n) : Prop :=
  ∃ b s', Runs Γ p s b s' ∧ if b then Q s' else E s'

/-- a loop with a number of rounds -/
private inductive Rounds {N : Names} {n : Nat} (Γ : Fin n → PTy N) (c : LCond N n) (a : LStmt N n) :
    Nat → RState n → Bool → RState n → Prop
  | more : CFits Γ s.st c → icond s.st c = some true → Runs Γ a s true s1 → Rounds Γ c a k s1 r s' → Rounds Γ c a (k + 1) s r s'
  | body : CFits Γ s.st c → icond s.st c = some true → Runs Γ a s false s1 → Rounds Γ c a 0 s false s1
  | stop : CFits Γ s.st c → icond s.st c = some false → Rounds Γ c a 0 s true s
  | exc : ¬ CFits Γ s.st c → Rounds Γ c a 0 s false s

private theorem rounds_of {N : Names} {n : Nat} {Γ : Fin n → PTy N} {c : LCond N n} {a : LStmt N n} {s s' : RState n} {r : Bool}
    (h : Runs Γ (.while c a) s r s') : ∃ k, Rounds Γ c a k s r s' := by
  generalize hw : LStmt.while c a = w at h
  induction h with
  | basic hb => subst hw; exact hb.elim
  | basicExc hb => subst hw; exact hb.elim
  | whileTrue c1 c2 k1 _ _ ih =>
    cases hw
    obtain ⟨k, h⟩ := ih rfl
    exact ⟨k + 1, .more c1 c2 k1 h⟩
  | whileBody c1 c2 k1 => cases hw; exact ⟨0, .body c1 c2 k1⟩
  | whileFalse c1 c2 => cases hw; exact ⟨0, .stop c1 c2⟩
  | whileExc c1 => cases hw; exact ⟨0, .exc c1⟩
  | _ => cases hw

private theorem wpt_hoare {N : Names} {n : Nat} (Γ : Fin n → PTy N) : ∀ (p : LStmt N n) (Q E : RState n → Prop),
    HoareT Γ (wpt Γ p Q E) p Q E
  | p, Q, E => by
    have basic : Basic p → HoareT Γ (wpt Γ p Q E) p Q E := fun hb => by
      refine .conseq (fun s h => ?_) (.basic hb) (fun _ h => h) (fun _ h => h)
      obtain ⟨b, s', r, h⟩ := h
      cases r <;> first | exact hb.elim | skip
      · rename_i g1 g2 g3; exact ⟨fun _ => ⟨_, g3, h⟩, fun h => absurd g2 h⟩
      · rename_i g1 g2; exact ⟨fun h => absurd h g2, fun _ => h⟩
    cases p with
    | skip => exact basic trivial
    | assign i e => exact basic trivial
    | opAssign op i e => exact basic trivial
    | inc i => exact basic trivial
    | dec i => exact basic trivial
    | output e => exact basic trivial
    | input i =>
      refine .conseq (fun s h => ?_) .input (fun _ h => h) (fun _ h => h)
      obtain ⟨b, s', r, h⟩ := h
      cases r with
      | basic hb => exact hb.elim
      | basicExc hb => exact hb.elim
      | input k => exact ⟨_, _, _, k, h⟩
    | seq a b =>
      refine .seq (.conseq (fun s h => ?_) (wpt_hoare Γ a (wpt Γ b Q E) E) (fun _ h => h) (fun _ h => h)) (wpt_hoare Γ b Q E)
      obtain ⟨x, s', r, h⟩ := h
      cases r with
      | basic hb => exact hb.elim
      | basicExc hb => exact hb.elim
      | seq k1 k2 => exact ⟨true, _, k1, x, s', k2, h⟩
      | seqExc k1 => exact ⟨false, s', k1, h⟩
    | ite c a b =>
      refine .conseq (P := fun s => wpt Γ (.ite c a b) Q E s ∧ (¬ CFits Γ s.st c → E s) ∧ (CFits Γ s.st c → icond s.st c ≠ none))
        (fun s h => ⟨h, ?_⟩) (.ite ?_ ?_) (fun _ h => h) (fun _ h => h)
      · obtain ⟨x, s', r, h⟩ := h
        cases r with
        | basic hb => exact hb.elim
        | basicExc hb => exact hb.elim
        | iteTrue c1 c2 k => exact ⟨fun h => absurd c1 h, fun _ => by rw [c2]; nofun⟩
        | iteFalse c1 c2 k => exact ⟨fun h => absurd c1 h, fun _ => by rw [c2]; nofun⟩
        | iteExc c1 => exact ⟨fun _ => h, fun h => absurd h c1⟩
      · refine .conseq (fun s h => ?_) (wpt_hoare Γ a Q E) (fun _ h => h) (fun _ h => h)
        obtain ⟨⟨x, s', r, h⟩, c1, c2⟩ := h
        cases r with
        | basic hb => exact hb.elim
        | basicExc hb => exact hb.elim
        | iteTrue _ _ k => exact ⟨x, s', k, h⟩
        | iteFalse _ d => rw [c2] at d; cases d
        | iteExc d => exact absurd c1 d
      · refine .conseq (fun s h => ?_) (wpt_hoare Γ b Q E) (fun _ h => h) (fun _ h => h)
        obtain ⟨⟨x, s', r, h⟩, c1, c2⟩ := h
        cases r with
        | basic hb => exact hb.elim
        | basicExc hb => exact hb.elim
        | iteTrue _ d => rw [c2] at d; cases d
        | iteFalse _ _ k => exact ⟨x, s', k, h⟩
        | iteExc d => exact absurd c1 d
    | «while» c a =>
      refine .conseq (fun s h => ?_) (.while (I := fun k s => ∃ b s', Rounds Γ c a k s b s' ∧ if b then Q s' else E s') (E := E)
        (fun k s h => ?_) fun k => .conseq (fun s h => ?_) (wpt_hoare Γ a _ E) (fun _ h => h) (fun _ h => h)) (fun s h => ?_)
        (fun _ h => h)
      · obtain ⟨b, s', r, h⟩ := h
        obtain ⟨k, r⟩ := rounds_of r
        exact ⟨k, b, s', r, h⟩
      · obtain ⟨b, s', r, h⟩ := h
        cases r with
        | more c1 c2 => exact ⟨fun h => absurd c1 h, fun _ => by rw [c2]; nofun⟩
        | body c1 c2 => exact ⟨fun h => absurd c1 h, fun _ => by rw [c2]; nofun⟩
        | stop c1 c2 => exact ⟨fun h => absurd c1 h, fun _ => by rw [c2]; nofun⟩
        | exc c1 => exact ⟨fun _ => h, fun h => absurd h c1⟩
      · obtain ⟨⟨b, s', r, h⟩, d1, d2⟩ := h
        cases r with
        | more c1 c2 k1 k2 => exact ⟨true, _, k1, _, Nat.lt_succ_self _, b, s', k2, h⟩
        | body c1 c2 k1 => exact ⟨false, _, k1, h⟩
        | stop c1 c2 => rw [c2] at d2; cases d2
        | exc c1 => exact absurd d1 c1
      · obtain ⟨⟨k, b, s', r, h⟩, d1, d2⟩ := h
        cases r with
        | more c1 c2 => rw [c2] at d2; cases d2
        | body c1 c2 => rw [c2] at d2; cases d2
        | stop c1 c2 => exact h
        | exc c1 => exact absurd d1 c1
    | tryCatch a b =>
      refine .tryCatch (.conseq (fun s h => ?_) (wpt_hoare Γ a Q (wpt Γ b Q E)) (fun _ h => h) (fun _ h => h)) (wpt_hoare Γ b Q E)
      obtain ⟨x, s', r, h⟩ := h
      cases r with
      | basic hb => exact hb.elim
      | basicExc hb => exact hb.elim
      | «try» k => exact ⟨true, _, k, h⟩
      | «catch» k1 k2 => exact ⟨false, _, k1, x, s', k2, h⟩

/-- The rules for total correctness are sound: the executions end, and as derived. -/
theorem C98_total_sound_partial {N : Names} (hN : Careful N) {n : Nat} (Γ : Fin n → PTy N) (hΓ : GoodVars Γ) (p : LStmt N n)
    (hp : SCovered Γ p) (P Q E : RState n → Prop) (h : HoareT Γ P p Q E) : TotallyCorrect Γ P p Q E := by
  intro s hs hP
  obtain ⟨b, t, r, h⟩ := sound_total h _ hP
  obtain ⟨f, o, s', h1, _, ⟨m, rfl⟩ | h2⟩ := C98_runs_partial hN Γ hΓ p _ _ b r hp s rfl hs
  · refine ⟨f, s', o, h1, ?_⟩
    cases b
    · exact Or.inr (Or.inl ⟨m, h⟩)
    · exact Or.inl ⟨m, h⟩
  · exact ⟨f, s', o, h1, Or.inr (Or.inr h2)⟩

/-- The rules for total correctness are complete. -/
theorem C98_total_complete_partial {N : Names} (hN : Careful N) {n : Nat} (Γ : Fin n → PTy N) (hΓ : GoodVars Γ) (p : LStmt N n)
    (hp : SCovered Γ p) (P Q E : RState n → Prop)
    (ha : ∀ f s s' o, Ranged Γ s.st → p.exec Γ f s = some (o, s') → o ≠ .fault .illFormed) (h : TotallyCorrect Γ P p Q E) :
    HoareT Γ (fun s => Ranged Γ s.st ∧ P s) p Q E := by
  refine .conseq (fun t ht => ?_) (wpt_hoare Γ p Q E) (fun _ h => h) (fun _ h => h)
  obtain ⟨f, s', o, h1, h2⟩ := h ⟨t.st, t.inp, t.out, 0⟩ ht.1 ht.2
  rcases C98_exec_partial hN Γ hΓ f p _ s' o hp ht.1 h1 with ⟨b, m, r⟩ | ho
  · refine ⟨b, _, r, ?_⟩
    cases b
    · obtain ⟨e, rfl⟩ := m
      rcases h2 with ⟨ho, _⟩ | ⟨_, h2⟩ | ho
      · cases ho
      · exact h2
      · cases ho
    · cases m
      rcases h2 with ⟨_, h2⟩ | ⟨⟨e, ho⟩, _⟩ | ho
      · exact h2
      · cases ho
      · cases ho
  · exact absurd ho (ha _ _ _ _ ht.1 h1)

/-- For programs that compile (C67) both together: a triple can be derived if and only if it is true of the executions; partial
and total correctness. -/
theorem C98_logic_partial {N : Names} (hN : Careful N) {n : Nat} (Γ : Fin n → PTy N) (hΓ : GoodVars Γ) (p : LStmt N n)
    (hp : SCovered Γ p) (ha : SAccepted Γ p) (P Q E : RState n → Prop) :
    (Hoare Γ (fun s => Ranged Γ s.st ∧ P s) p Q E ↔
      ∀ (f : Nat) (s s' : LState n) (o : Out Unit), Ranged Γ s.st → P (seen s) → p.exec Γ f s = some (o, s') →
        (o = .ret () ∧ Q (seen s')) ∨ ((∃ e, o = .thrown e) ∧ E (seen s'))) ∧
    (HoareT Γ (fun s => Ranged Γ s.st ∧ P s) p Q E ↔
      ∀ s : LState n, Ranged Γ s.st → P (seen s) → ∃ f s' o, p.exec Γ f s = some (o, s') ∧
        ((o = .ret () ∧ Q (seen s')) ∨ ((∃ e, o = .thrown e) ∧ E (seen s')))) := by
  have acc : ∀ f s s' o, Ranged Γ s.st → p.exec Γ f s = some (o, s') → o ≠ .fault .illFormed :=
    fun f s s' o hs h e => C67_program_partial hN Γ hΓ f p s s' hp ha hs (by rw [h, e])
  refine ⟨⟨fun h f s s' o hs hP he => ?_, fun h => ?_⟩, ⟨fun h s hs hP => ?_, fun h => ?_⟩⟩
  · rcases C98_sound_partial hN Γ hΓ p hp _ Q E h f s s' o hs ⟨hs, hP⟩ he with h | h | h
    · exact Or.inl h
    · exact Or.inr h
    · exact absurd h (acc _ _ _ _ hs he)
  · exact C98_complete_partial hN Γ hΓ p hp P Q E acc fun f s s' o hs hP he => (h f s s' o hs hP he).imp_right Or.inl
  · obtain ⟨f, s', o, he, h | h | h⟩ := C98_total_sound_partial hN Γ hΓ p hp _ Q E h s hs ⟨hs, hP⟩
    · exact ⟨f, s', o, he, Or.inl h⟩
    · exact ⟨f, s', o, he, Or.inr h⟩
    · exact absurd h (acc _ _ _ _ hs he)
  · refine C98_total_complete_partial hN Γ hΓ p hp P Q E acc fun s hs hP => ?_
    obtain ⟨f, s', o, he, h⟩ := h s hs hP
    exact ⟨f, s', o, he, h.imp_right Or.inl⟩

end

/-! ### programs meeting the hypotheses -/

namespace Handler
attribute [local instance] lp64
open Euclid (names careful)

/-- `safe<int>` -/
abbrev z : PTy names := ⟨Opd.ofSafe i32, some (), some ()⟩

/-- `safe<int> x, i, n` -/
def Γ : Fin 3 → PTy names := fun _ => z

theorem z_wf : PTy.Wf z := ⟨by decide +kernel, nofun, fun _ => ⟨nofun, nofun⟩, nofun⟩

theorem good : GoodVars Γ := fun _ => ⟨z_wf, Or.inr rfl⟩

/-- `try { x = x * x; } catch(...) { x = 0; }` -/
def square : LStmt names 3 :=
  .tryCatch (.assign 0 (.bin (.ar .mul) (.var 0) (.var 0))) (.assign 0 (.const i32 0))

/-- `while(i < n) { ++i; try { x = x * x; } catch(...) { x = 0; } }` -/
def loop : LStmt names 3 := .while (.cmp .lt (.var 1) (.var 2)) (.seq (.inc 1) square)

theorem square_covered : SCovered Γ square := by
  refine ⟨⟨⟨trivial, trivial, fun T U h1 h2 => ?_⟩, fun T h => ?_⟩, ⟨by decide +kernel, by decide +kernel⟩, fun T h => ?_⟩
  · cases h1; cases h2; exact ⟨Or.inl rfl, fun _ _ _ _ => trivial⟩
  · exact ⟨z_wf, Or.inr rfl, Or.inl rfl⟩
  · exact ⟨z_wf, Or.inr rfl, Or.inl rfl⟩

theorem loop_covered : SCovered Γ loop := by
  refine ⟨⟨trivial, trivial, fun T U h _ => ?_⟩, rfl, square_covered⟩
  cases h; exact Or.inl (Or.inl rfl)

theorem in_iff (x : Int) : i32.In x ↔ -2147483648 ≤ x ∧ x ≤ 2147483647 := Iff.rfl
theorem has_iff (x : Int) : (Opd.ofSafe i32).Has x ↔ -2147483648 ≤ x ∧ x ≤ 2147483647 := Iff.rfl

theorem mul_result : PP.result .native .mul (Opd.ofSafe i32) (Opd.ofSafe i32) = .ret i32 := by decide +kernel

/-- `x = x * x` fits exactly if the square is an `int` -/
theorem square_fits (s : RState 3) (hs : i32.In (s.st 0)) :
    SFits Γ 1 (.assign 0 (.bin (.ar .mul) (.var 0) (.var 0))) s.ints ↔ i32.In (s.st 0 * s.st 0) := by
  constructor
  · intro h
    exact h.2 _ rfl
  · intro h
    refine ⟨⟨trivial, trivial, fun T U t u h1 h2 h3 h4 q R _ hR => ?_⟩, fun v hv => ?_⟩
    · cases h1; cases h2; cases h3; cases h4
      have hR : PP.result .native .mul (Opd.ofSafe i32) (Opd.ofSafe i32) = .ret R := hR
      rw [mul_result] at hR; cases hR
      exact Or.inl ⟨hs, hs, ⟨_, rfl, h⟩, nofun, nofun⟩
    · cases hv; exact h

theorem zero_fits (s : RState 3) : SFits Γ 1 (.assign 0 (.const i32 0) : LStmt names 3) s.ints :=
  ⟨trivial, fun v hv => by cases hv; decide +kernel⟩

/-- the number afterwards: the square if it is an `int`, otherwise zero -/
theorem square_hoare (P : RState 3 → Prop) (a : Int) (ha : i32.In a) (hP : ∀ s, P s → s.st 0 = a) :
    Hoare Γ P square (fun s' => ∃ s, P s ∧ s' = s.put (s.ints.write 0 (if i32.In (a * a) then a * a else 0))) (fun _ => False) := by
  refine .tryCatch (R := fun s => P s ∧ ¬ i32.In (a * a)) (.conseq (fun s h => ⟨fun h1 s' h2 => ?_, fun h1 => ?_⟩) (.basic trivial)
    (fun _ h => h) (fun _ h => h)) (.conseq (fun s h => ⟨fun _ s' h2 => ?_, fun h1 => ?_⟩) (.basic trivial) (fun _ h => h) (fun _ h => h))
  · have e := hP s h
    rw [square_fits s (by rw [e]; exact ha), e] at h1
    have h2 : some (some (s.ints.write 0 (s.st 0 * s.st 0))) = some (some s') := h2
    cases h2
    exact ⟨s, h, by rw [if_pos h1, e]⟩
  · have e := hP s h
    rw [square_fits s (by rw [e]; exact ha), e] at h1
    exact ⟨h, h1⟩
  · have h2 : some (some (s.ints.write 0 0)) = some (some s') := h2
    cases h2
    exact ⟨s, h.1, by rw [if_neg h.2]⟩
  · exact h1 (zero_fits s)

-- every execution ends with the square if it is an `int`, otherwise zero, and never by an exception
example (f : Nat) (s s' : LState 3) (o : Out Unit) (hs : Ranged Γ s.st) (h : square.exec Γ f s = some (o, s'))
    (ha : o ≠ .fault .illFormed) :
    o = .ret () ∧ s'.st 0 = if i32.In (s.st 0 * s.st 0) then s.st 0 * s.st 0 else 0 := by
  rcases C98_sound_partial careful Γ good square square_covered _ _ _
    (square_hoare (fun t => t = seen s) (s.st 0) (hs 0) (fun _ h => by rw [h]; rfl)) f s s' o hs rfl h with ⟨h1, t, rfl, h2⟩ | ⟨_, h⟩ | h
  · refine ⟨h1, ?_⟩
    exact congrFun (congrArg RState.st h2) 0
  · exact h.elim
  · exact absurd h ha

example : (square.exec Γ 5 ⟨fun _ => 46340, ⟨[], false, false⟩, [], 0⟩).map (fun r => (r.1, r.2.st 0, r.2.caught)) =
    some (.ret (), 2147395600, 0) := by decide +kernel
example : (square.exec Γ 5 ⟨fun _ => 46341, ⟨[], false, false⟩, [], 0⟩).map (fun r => (r.1, r.2.st 0, r.2.caught)) =
    some (.ret (), 0, 1) := by decide +kernel

theorem less_fits (s : RState 3) (h1 : i32.In (s.st 1)) (h2 : i32.In (s.st 2)) :
    CFits Γ s.st (.cmp .lt (.var 1) (.var 2) : LCond names 3) := by
  refine ⟨trivial, trivial, fun T U t u q R g1 g2 g3 g4 _ g6 => ?_⟩
  cases g1; cases g2; cases g3; cases g4
  have e1 : PP.result .native .cmp (Opd.ofSafe i32) (Opd.ofSafe i32) = .ret i32 := by decide +kernel
  obtain rfl : i32 = R := Out.ret.inj (e1.symm.trans g6)
  exact Or.inl ⟨h1, h2⟩

theorem inc_fits (s : RState 3) (h1 : i32.In (s.st 1)) (h2 : i32.In (s.st 1 + 1)) : SFits Γ 1 (.inc 1 : LStmt names 3) s.ints := by
  refine ⟨fun q R _ hR => ?_, h2⟩
  have e1 : PP.result .native .add (Opd.ofSafe i32) (Opd.ofBuiltin i32) = .ret i32 := by decide +kernel
  obtain rfl : i32 = R := Out.ret.inj (e1.symm.trans hR)
  exact Or.inl ⟨h1, by decide +kernel, ⟨_, rfl, h2⟩, nofun, nofun⟩

/-- the loop never leaves the ranges and never throws; when it ends `i` is at least `n` -/
theorem loop_hoare : Hoare Γ (fun s => ∀ i, i32.In (s.st i)) loop (fun s => (∀ i, i32.In (s.st i)) ∧ s.st 2 ≤ s.st 1) (fun _ => False) := by
  refine .conseq (fun s h => ⟨h, fun h1 => h1 (less_fits s (h 1) (h 2))⟩) (.while (I := fun s => ∀ i, i32.In (s.st i)) (E := fun _ => False)
    (.seq (R := fun s => ∀ i, i32.In (s.st i)) ?_ ?_)) (fun s h => ⟨h.1, ?_⟩) (fun _ h => h)
  · refine .conseq (fun s h => ?_) (.basic trivial) (fun _ h => h) (fun _ h => h)
    have h3 : some (decide (s.st 1 < s.st 2)) = some true := h.2.2
    have h3 : s.st 1 < s.st 2 := by simpa using h3
    have h4 : i32.In (s.st 1 + 1) := by
      have := h.1 1; have := h.1 2
      rw [in_iff] at *; omega
    refine ⟨fun _ s' h2 => ?_, fun h1 => h1 (inc_fits s (h.1 1) h4)⟩
    have h2 : some (some (s.ints.write 1 (s.st 1 + 1))) = some (some s') := h2
    cases h2
    intro i
    show i32.In (if i = 1 then s.st 1 + 1 else s.st i)
    split
    · exact h4
    · exact h.1 i
  · refine .tryCatch (R := fun s => ∀ i, i32.In (s.st i)) (.conseq (fun s h => ⟨fun h1 s' h2 => ?_, fun h1 => h⟩) (.basic trivial)
      (fun s h => ⟨h, fun h1 => h1 (less_fits s (h 1) (h 2))⟩) (fun _ h => h))
      (.conseq (fun s h => ⟨fun _ s' h2 => ?_, fun h1 => h1 (zero_fits s)⟩) (.basic trivial)
      (fun s h => ⟨h, fun h1 => h1 (less_fits s (h 1) (h 2))⟩) (fun _ h => h))
    · rw [square_fits s (h 0)] at h1
      have h2 : some (some (s.ints.write 0 (s.st 0 * s.st 0))) = some (some s') := h2
      cases h2
      intro i
      show i32.In (if i = 0 then s.st 0 * s.st 0 else s.st i)
      split
      · exact h1
      · exact h i
    · have h2 : some (some (s.ints.write 0 0)) = some (some s') := h2
      cases h2
      intro i
      show i32.In (if i = 0 then 0 else s.st i)
      split
      · decide +kernel
      · exact h i
  · have h3 : some (decide (s.st 1 < s.st 2)) = some false := h.2.2
    simpa using h3

example (f : Nat) (s s' : LState 3) (o : Out Unit) (hs : Ranged Γ s.st) (h : loop.exec Γ f s = some (o, s'))
    (ha : o ≠ .fault .illFormed) : o = .ret () ∧ s'.st 2 ≤ s'.st 1 := by
  rcases C98_sound_partial careful Γ good loop loop_covered _ _ _ loop_hoare f s s' o hs hs h with
    ⟨h1, h2⟩ | ⟨_, h⟩ | h
  · exact ⟨h1, h2.2⟩
  · exact h.elim
  · exact absurd h ha

/-- and it ends: every round decreases `n - i` -/
theorem loop_total : HoareT Γ (fun s => ∀ i, i32.In (s.st i)) loop (fun s => (∀ i, i32.In (s.st i)) ∧ s.st 2 ≤ s.st 1) (fun _ => False) := by
  refine .conseq (fun s h => ⟨(s.st 2 - s.st 1).toNat, h, rfl⟩)
    (.while (I := fun k s => (∀ i, i32.In (s.st i)) ∧ (s.st 2 - s.st 1).toNat = k) (E := fun _ => False)
    (fun k s h => ⟨fun h1 => h1 (less_fits s (h.1 1) (h.1 2)), fun _ => nofun⟩)
    fun k => .seq (R := fun s => ∃ j, j < k ∧ (∀ i, i32.In (s.st i)) ∧ (s.st 2 - s.st 1).toNat = j) ?_ ?_)
    (fun s h => ⟨h.1.elim fun _ h => h.1, ?_⟩) (fun _ h => h)
  · refine .conseq (fun s h => ?_) (.basic trivial) (fun _ h => h) (fun _ h => h)
    obtain ⟨⟨h, hk⟩, _, h3⟩ := h
    have h3 : some (decide (s.st 1 < s.st 2)) = some true := h3
    have h3 : s.st 1 < s.st 2 := by simpa using h3
    have h4 : i32.In (s.st 1 + 1) := by
      have := h 1; have := h 2
      rw [in_iff] at *; omega
    refine ⟨fun _ => ⟨_, rfl, (s.st 2 - (s.st 1 + 1)).toNat, by omega, fun i => ?_, rfl⟩, fun h1 => h1 (inc_fits s (h 1) h4)⟩
    show i32.In (if i = 1 then s.st 1 + 1 else s.st i)
    split
    · exact h4
    · exact h i
  · refine .tryCatch (R := fun s => ∃ j, j < k ∧ (∀ i, i32.In (s.st i)) ∧ (s.st 2 - s.st 1).toNat = j)
      (.conseq (fun s h => ⟨fun h1 => ?_, fun h1 => h⟩) (.basic trivial) (fun s h => h) (fun _ h => h))
      (.conseq (fun s h => ⟨fun _ => ?_, fun h1 => h1 (zero_fits s)⟩) (.basic trivial) (fun s h => h) (fun _ h => h))
    · obtain ⟨j, hj, h, e⟩ := h
      rw [square_fits s (h 0)] at h1
      refine ⟨_, rfl, j, hj, fun i => ?_, e⟩
      show i32.In (if i = 0 then s.st 0 * s.st 0 else s.st i)
      split
      · exact h1
      · exact h i
    · obtain ⟨j, hj, h, e⟩ := h
      refine ⟨_, rfl, j, hj, fun i => ?_, e⟩
      show i32.In (if i = 0 then 0 else s.st i)
      split
      · decide +kernel
      · exact h i
  · have h3 : some (decide (s.st 1 < s.st 2)) = some false := h.2.2
    simpa using h3

example : TotallyCorrect Γ (fun s => ∀ i, i32.In (s.st i)) loop (fun s => (∀ i, i32.In (s.st i)) ∧ s.st 2 ≤ s.st 1) (fun _ => False) :=
  C98_total_sound_partial careful Γ good loop loop_covered _ _ _ loop_total

theorem square_accepted : SAccepted Γ square := by
  refine ⟨⟨⟨trivial, trivial, z, z, rfl, rfl, 0, 0, by decide +kernel⟩, ⟨Opd.ofSafe i32, some (), some ()⟩, by decide +kernel, 0, by decide +kernel⟩,
    trivial, PTy.builtin i32, rfl, 0, by decide +kernel⟩

-- both directions for the handler
example (P Q E : RState 3 → Prop) : Hoare Γ (fun s => Ranged Γ s.st ∧ P s) square Q E ↔
    ∀ (f : Nat) (s s' : LState 3) (o : Out Unit), Ranged Γ s.st → P (seen s) → square.exec Γ f s = some (o, s') →
      (o = .ret () ∧ Q (seen s')) ∨ ((∃ e, o = .thrown e) ∧ E (seen s')) :=
  (C98_logic_partial careful Γ good square square_covered square_accepted P Q E).1

/-- `try { std::cin >> x; } catch(...) { x = 0; }` -/
def ask : LStmt names 3 := .tryCatch (.input 0) (.assign 0 (.const i32 0))

theorem ask_covered : SCovered Γ ask := ⟨⟨rfl, by decide +kernel, rfl, rfl⟩, square_covered.2⟩

/-- afterwards `x` is the `int` at the front of the input, or zero if there is none -/
theorem ask_hoare (b : IStream) : Hoare Γ (fun s => s.inp = b) ask
    (fun s => (∃ sg rest, NumberAt b.buf sg (s.st 0) rest ∧ i32.In (s.st 0)) ∨ s.st 0 = 0) (fun _ => False) := by
  refine .tryCatch (R := fun _ => True) (.conseq (fun s h r v t hr => ?_) .input (fun _ h => h) (fun _ h => h))
    (.conseq (fun s _ => ⟨fun _ s' h2 => ?_, fun h1 => h1 (zero_fits s)⟩) (.basic trivial) (fun _ h => h) (fun _ h => h))
  · cases h
    cases hr with
    | number _ _ hn _ hk => exact Or.inl ⟨_, _, hn, hk⟩
    | _ => trivial
  · have h2 : some (some (s.ints.write 0 0)) = some (some s') := h2
    cases h2
    exact Or.inr rfl

example (f : Nat) (s s' : LState 3) (o : Out Unit) (hs : Ranged Γ s.st) (h : ask.exec Γ f s = some (o, s'))
    (ha : o ≠ .fault .illFormed) :
    o = .ret () ∧ ((∃ sg rest, NumberAt s.inp.buf sg (s'.st 0) rest ∧ i32.In (s'.st 0)) ∨ s'.st 0 = 0) := by
  rcases C98_sound_partial careful Γ good ask ask_covered _ _ _ (ask_hoare s.inp) f s s' o hs rfl h with h | ⟨_, h⟩ | h
  · exact h
  · exact h.elim
  · exact absurd h ha

example : (ask.exec Γ 5 ⟨fun _ => 7, ⟨" -12 3".toList, false, false⟩, [], 0⟩).map (fun r => (r.1, r.2.st 0, r.2.caught)) =
    some (.ret (), -12, 0) := by decide +kernel
example : (ask.exec Γ 5 ⟨fun _ => 7, ⟨"99999999999".toList, false, false⟩, [], 0⟩).map (fun r => (r.1, r.2.st 0, r.2.caught)) =
    some (.ret (), 0, 1) := by decide +kernel

end Handler
end Verif.Props
