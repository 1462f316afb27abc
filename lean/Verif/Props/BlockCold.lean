import Verif.Lemmas.BlockCold
import Verif.Props.BlockGround
import Verif.Props.ColdStart
/-
C116: the block DMRG from the random chain it makes itself, which is neither normalised nor in canonical form.
-/
namespace QuantiT
namespace DM
variable {S : Type}

theorem walk_split {Q : Nat → Bool → List S → ℝ → List S → Prop} : ∀ (l l' : List (Nat × Bool)) (s s' : List S) (e e' : Option ℝ),
    Walk Q (l ++ l') s e e' s' → ∃ e1 s1, Walk Q l s e e1 s1 ∧ Walk Q l' s1 e1 e' s'
  | [], l', s, s', e, e', h => ⟨e, s, .nil s e, h⟩
  | (o, f) :: l, l', s, s', e, e', h => by
    cases h with
    | cons hq hw =>
      obtain ⟨e1, s1, a, b⟩ := walk_split l l' _ _ _ _ hw
      exact ⟨e1, s1, .cons hq a, b⟩

end DM

namespace BN
open Spec BT MP Finset HM Matrix

section
variable {G 𝕜 : Type} [RCLike 𝕜]

/-- The chains for which the update at the pair `o`, `o + 1` is understood.  `shared`, `tidy`, `few`, `small`: as in C97.  On a normalised chain
that is canonical around the pair, apart from unused elements: those of C97.  On any other: the eigensolver does not annihilate the two-site
tensor (by `C96_moving` it does not unless the tensor is an eigenvector of the effective Hamiltonian). -/
structure ReadyB [AddCommGroup G] [LinearOrder G] (late : Bool) (Ws s0 : List (BT G 𝕜)) (fac : Blk 𝕜 → Blk 𝕜 × Blk 𝕜 × Blk 𝕜) (eps cutoff : ℝ)
    (minB maxB : Nat) (o : Nat) (s : List (BT G 𝕜)) : Prop where
  regular : PairSemi (s.map denseOf) o → normSq (s.map denseOf) = 1 → DM.Regular (Ws.map denseOf) (s.map denseOf) o
  alive : ¬ (PairSemi (s.map denseOf) o ∧ normSq (s.map denseOf) = 1) →
    ∀ E θ, DM.Found (Ws.map denseOf) (s.map denseOf) o E θ → ∃ q ∈ configs θ.dims, θ.f q ≠ 0
  shared : ∀ ψ ψ', BlockPair late Ws s0 s o ψ ψ' → Shared ψ ψ'
  tidy : ∀ t, NewPair late Ws s0 s o t → Tidy fac eps cutoff minB maxB t 2
  few : ∀ A, s[o]? = some A → ((A.shape.take 2).map List.length).prod < 2 ^ 63
  small : ∀ A, s[o]? = some A → ((A.shape.take 2).map dimSize).prod < 2 ^ 63

/-- What every update keeps, whatever the start. -/
structure LooseB [AddCommGroup G] (Ws s0 s : List (BT G 𝕜)) (c : Nat) : Prop where
  fit : BlockFit s Ws s
  outer : SameOuter s0 s
  closed : Closed (s.map denseOf)
  left : DM.LeftPart (s.map denseOf) c

theorem SemiGoodB.loose [AddCommGroup G] {Ws s0 s : List (BT G 𝕜)} {c : Nat} (h : SemiGoodB Ws s0 s c) : LooseB Ws s0 s c :=
  ⟨h.fit, h.outer, h.closed, h.canon.left, h.canon.skipLeft⟩

/-- What an update does, whatever the start. -/
structure ColdStepB [AddCommGroup G] (Ws s0 : List (BT G 𝕜)) (eps cutoff : ℝ) (minB maxB : Nat) (o : Nat) (f : Bool) (s : List (BT G 𝕜)) (x : ℝ)
    (s' : List (BT G 𝕜)) : Prop where
  last : o + 2 = s0.length → SemiGoodB Ws s0 s' (if f then o + 1 else o)
  good : ∀ c, SemiGoodB Ws s0 s c → (o = c ∨ o + 1 = c) →
    CutStepB (Ws.map denseOf) (phys (s0.map denseOf)) eps cutoff minB maxB o s x s' ∧ SemiGoodB Ws s0 s' (if f then o + 1 else o)

theorem cold_stepsB [AddCommGroup G] [LinearOrder G] (late : Bool) (Ws sites : List (BT G 𝕜))
    {fac : Blk 𝕜 → Blk 𝕜 × Blk 𝕜 × Blk 𝕜} (hfac : DenseSvd fac) (eps cutoff : ℝ) (he0 : 0 < eps) (he1 : eps ≤ 1 / 2) (hcut : 0 ≤ cutoff)
    (minB maxB : Nat) (hmin : 1 ≤ minB) (hne : sites ≠ []) (hk : Chained 3 sites) (hp : AllPositive sites) (hpW : AllPositive Ws)
    (hcW : Closed (Ws.map denseOf)) (hl : late = false ∨ chargeAt (leftDim Ws) 0 = 0 ∧ chargeAt (rightDim Ws) 0 = 0) (hr : Neutral Ws)
    (hH : HermitianOp (Ws.map denseOf) (phys (sites.map denseOf))) :
    DM.Steps (cutDmrgB late Ws fac eps cutoff minB maxB sites) (ReadyB late Ws sites fac eps cutoff minB maxB) (LooseB Ws sites)
      (ColdStepB Ws sites eps cutoff minB maxB) sites.length := by
  intro s c o f hg hc hin hP
  have hlen := SameOuter.length_eq hg.outer
  have hph := SameOuter.phys_dense hg.outer
  have hst : StartChain sites s := ⟨hne, hk, hp, hg.outer.left.symm, hg.outer.right.symm⟩
  by_cases hcan : PairSemi (s.map denseOf) o ∧ normSq (s.map denseOf) = 1
  · obtain ⟨x, s', v, w, a1, a2, a3, a4, a5, a6, a7, a8, a9, _, _, b1⟩ := C97_update_partial late Ws sites s hfac eps cutoff he0 he1 hcut minB maxB (.inl hmin)
      o f hg.fit hst hpW hg.closed hcW hl hr (by rw [hph]; exact hH) (by rw [hlen]; exact hin) hcan.1 hcan.2
      ⟨hP.regular hcan.1 hcan.2, hP.shared, hP.tidy, hP.few, hP.small⟩
    rw [hph] at a7 a8 b1
    have hG : SemiGoodB Ws sites s' (if f then o + 1 else o) := ⟨a2, SameOuter.trans hg.outer a3, a4, a5, a6⟩
    refine ⟨x, s', a1, hG.loose, fun _ => hG, fun _ _ _ => ⟨⟨⟨v, w, a7, a8, b1⟩, a9, fun lo hi h1 h2 => ?_⟩, hG⟩⟩
    have h := (h1 v).trans (h2 v)
    have hn := a8.norm
    unfold vecNormSq at hn
    rw [hn] at h
    linarith
  · obtain ⟨x, s', a1, a2, a3, a4, a5, a6⟩ := cold_updateB late Ws sites s hfac eps cutoff he0 he1 hcut minB maxB hmin o f hg.fit hst hpW hg.closed hcW hl hr
      (by rw [hlen]; exact hin) (hg.left.mono (by omega)) (hP.alive hcan) hP.shared hP.tidy hP.few hP.small
    refine ⟨x, s', a1, ⟨a2, SameOuter.trans hg.outer a3, a4, a5⟩, fun h => ?_, fun c' hG hc' => absurd ⟨DM.semiCanonical_pair hG.canon (by omega), hG.norm⟩ hcan⟩
    obtain ⟨b1, b2⟩ := a6 (by rw [hlen]; exact h)
    exact ⟨a2, SameOuter.trans hg.outer a3, a4, b1, b2⟩

/-- From a good chain on, all updates are those of C97. -/
theorem walk_goodB [AddCommGroup G] {Ws s0 : List (BT G 𝕜)} {eps cutoff : ℝ} {minB maxB : Nat} {l : List (Nat × Bool)} {s s' : List (BT G 𝕜)}
    {e e' : Option ℝ} (h : DM.Walk (ColdStepB Ws s0 eps cutoff minB maxB) l s e e' s') : ∀ c, SemiGoodB Ws s0 s c → DM.Follows c l →
    DM.Walk (fun o _ s x s' => CutStepB (Ws.map denseOf) (phys (s0.map denseOf)) eps cutoff minB maxB o s x s') l s e e' s' ∧
      SemiGoodB Ws s0 s' (DM.after c l) := by
  induction h with
  | nil s e => exact fun c hg _ => ⟨.nil s e, hg⟩
  | @cons o f l s s1 s' x e e' hq hw ih =>
    intro c hg hf
    obtain ⟨a, b⟩ := hq.good c hg hf.1
    obtain ⟨c1, c2⟩ := ih _ b hf.2
    exact ⟨.cons a c1, c2⟩

/-- **C116** (partial: for the chains a run meets see `ReadyB`).  A whole run of the block DMRG with its truncated SVD from any block chain with
ends of one element, as the random one the library starts from when given a charge only: neither canonical form nor norm one is asked for.
It returns; the chain returned is the one of the last iteration logged and so is the energy; and of every iteration logged, the chain conserves
the charge rules, with the outer dimensions and total rule of the initial one; it has norm one and is canonical, apart from unused elements, around
one of the first two sites; and, but for the first iteration on three sites, the energy logged lies within every bounds of the spectrum
and, if every bond uses less than the maximum, is that of the chain up to the width of the spectrum times the cutoff. -/
theorem C116_run_partial [AddCommGroup G] [LinearOrder G] (late : Bool) (Ws sites : List (BT G 𝕜))
    {fac : Blk 𝕜 → Blk 𝕜 × Blk 𝕜 × Blk 𝕜} (hfac : DenseSvd fac) (eps cutoff : ℝ) (he0 : 0 < eps) (he1 : eps ≤ 1 / 2) (hcut : 0 ≤ cutoff)
    (minB maxB : Nat) (hmin : 1 ≤ minB)
    (hF : BlockFit sites Ws sites) (hp : AllPositive sites) (hpW : AllPositive Ws) (hc : Closed (sites.map denseOf)) (hcW : Closed (Ws.map denseOf))
    (hl : late = false ∨ chargeAt (leftDim Ws) 0 = 0 ∧ chargeAt (rightDim Ws) 0 = 0) (hr : Neutral Ws)
    (hH : HermitianOp (Ws.map denseOf) (phys (sites.map denseOf))) (h2 : 2 ≤ sites.length) (hsm : sites.length < 2 ^ 63)
    (dflt : Res (BT G 𝕜)) (above : ℝ → ℝ → Bool) (zeroNorm : List (BT G 𝕜) → Bool)
    (moveOc : List (BT G 𝕜) → Nat → Nat → Res (List (BT G 𝕜) × Nat)) (e0 : ℝ) (maxIt : Nat) (hmax : 1 ≤ maxIt)
    (hreg : DM.RunAll (cutDmrgB late Ws fac eps cutoff minB maxB sites) (ReadyB late Ws sites fac eps cutoff minB maxB)
      (DM.tours sites.length 0 maxIt) sites) :
    ∃ e fin log, DM.dmrg false (cutDmrgB late Ws fac eps cutoff minB maxB sites) dflt above zeroNorm moveOc e0 maxIt sites.length sites 0
        = .ok (e, fin, 0, log) ∧
      (∃ n, Event.iteration n e fin ∈ log ∧ ∀ n' x s', Event.iteration n' x s' ∈ log → n' ≤ n) ∧
      ∀ n x s, Event.iteration n x s ∈ log → BlockFit s Ws s ∧ SameOuter sites s ∧ normSq (s.map denseOf) = 1 ∧
        (SemiCanonical (s.map denseOf) 0 ∨ SemiCanonical (s.map denseOf) 1) ∧
        (n ≠ 0 ∨ sites.length ≠ 3 →
          (∀ lo, BoundedBelow (Ws.map denseOf) (phys (sites.map denseOf)) lo → lo ≤ x) ∧
          (∀ hi, BoundedAbove (Ws.map denseOf) (phys (sites.map denseOf)) hi → x ≤ hi) ∧
          ((∀ o, o + 1 < s.length → usedBond (s.map denseOf) o < maxB) →
            ∀ lo hi, BoundedBelow (Ws.map denseOf) (phys (sites.map denseOf)) lo → BoundedAbove (Ws.map denseOf) (phys (sites.map denseOf)) hi →
            |x - energy (Ws.map denseOf) (s.map denseOf)| ≤ (hi - lo) * cutoff)) := by
  have hne : sites ≠ [] := by rintro rfl; simp at h2
  have hL := cold_stepsB late Ws sites hfac eps cutoff he0 he1 hcut minB maxB hmin hne hF.ket hp hpW hcW hl hr hH
  have hq : startPair sites.length 0 = 0 := by unfold startPair; split <;> omega
  obtain ⟨e, fin, oc', log, s, h, a1, a2, a3, a4, a5, a6, a7, a8, a9⟩ := DM.dmrg_steps hL h2 hsm 0 (by omega)
    ⟨hF, SameOuter.refl _, hc, fun i A _ hi => by omega, fun i A B _ _ hi => by omega⟩ false dflt above zeroNorm (by simp) moveOc (by simp) e0 maxIt hmax
    (by rw [hq]; exact hreg)
  rw [hq] at a6 a7 a8
  unfold DM.Finish at a6
  rw [if_neg (by simp)] at a6
  obtain ⟨rfl, rfl⟩ := a6
  obtain ⟨l1, l2, t1, t2, t3, t4⟩ := DM.tour_zero sites.length h2
  -- a sweep leaves a good chain, and its updates after the last pair are those of C97
  have hsweep : ∀ (x : List (BT G 𝕜)) (y : ℝ × List (BT G 𝕜)), DM.Walk (ColdStepB Ws sites eps cutoff minB maxB) (tour sites.length 0) x none (some y.1) y.2 →
      (∃ c, (0 = c ∨ 0 + 1 = c) ∧ SemiGoodB Ws sites y.2 c) ∧ ∃ e1 s1, DM.Walk (fun o _ s x s' =>
        CutStepB (Ws.map denseOf) (phys (sites.map denseOf)) eps cutoff minB maxB o s x s') l2 s1 e1 (some y.1) y.2 := by
    intro x y hw
    rw [t1] at hw
    obtain ⟨e1, s1, _, hw⟩ := DM.walk_split _ _ _ _ _ _ hw
    cases hw with
    | cons hq' hw =>
      have hg := hq'.last (by omega)
      simp only [Bool.false_eq_true, if_false] at hg
      obtain ⟨b1, b2⟩ := walk_goodB hw _ hg t2
      exact ⟨⟨_, by omega, b2⟩, _, _, b1⟩
  have hgood : ∀ (k : Nat) (y : ℝ × List (BT G 𝕜)), h[k + 1]? = some y → ∃ c, (0 = c ∨ 0 + 1 = c) ∧ SemiGoodB Ws sites y.2 c := by
    intro k y hy
    have hk := (List.getElem?_eq_some_iff.1 hy).1
    obtain ⟨x, hx⟩ : ∃ x, h[k]? = some x := ⟨_, List.getElem?_eq_getElem (by omega)⟩
    exact (hsweep _ _ (a8 k x y hx hy)).1
  refine ⟨e, fin, log, a1, ⟨h.length - 2, ?_, ?_⟩, ?_⟩
  · rw [a9, show h.length - 2 + 1 = h.length - 1 by omega]
    exact a5
  · intro n' x s' hm
    have := (List.getElem?_eq_some_iff.1 ((a9 _ _ _).1 hm)).1
    omega
  · intro n x s1 hm
    have hx := (a9 _ _ _).1 hm
    have hlt := (List.getElem?_eq_some_iff.1 hx).1
    obtain ⟨c, hcc, hg⟩ := hgood _ _ hx
    simp only at hg
    have hlen : s1.length = sites.length := SameOuter.length_eq hg.outer
    obtain ⟨y, hy⟩ : ∃ y, h[n]? = some y := ⟨_, List.getElem?_eq_getElem (by omega)⟩
    have hw := a8 n y _ hy hx
    refine ⟨hg.fit, hg.outer, hg.norm, ?_, fun hn => ?_⟩
    · rcases hcc with rfl | rfl
      · exact .inl hg.canon
      · exact .inr hg.canon
    -- the last update of the sweep
    obtain ⟨o, f, s0, hmem, hQ⟩ : ∃ o f s0, (o, f) ∈ tour sites.length 0 ∧
        CutStepB (Ws.map denseOf) (phys (sites.map denseOf)) eps cutoff minB maxB o s0 x s1 := by
      by_cases h0 : n = 0
      · obtain ⟨_, e1, s2, hw2⟩ := hsweep _ _ hw
        obtain ⟨o, f, s0, x', hmem, hxx, hQ⟩ := DM.walk_last hw2 (t4 (by tauto))
        cases hxx
        exact ⟨o, f, s0, by rw [t1]; simp [hmem], hQ⟩
      · obtain ⟨cy, hcy, hgy⟩ := hgood (n - 1) y (by rw [show n - 1 + 1 = n by omega]; exact hy)
        obtain ⟨f1, _⟩ := DM.follows_tour sites.length 0 cy h2 (by omega) hcy
        obtain ⟨hw2, _⟩ := walk_goodB hw cy hgy f1
        obtain ⟨o, f, s0, x', hmem, hxx, hQ⟩ := DM.walk_last hw2 (DM.tour_ne sites.length _ h2)
        cases hxx
        exact ⟨o, f, s0, hmem, hQ⟩
    obtain ⟨v, w, u1, u2, u3⟩ := hQ.trunc
    obtain ⟨v1, v2⟩ := DM.vec_bounds (Ws := Ws.map denseOf) u2.norm
    refine ⟨fun lo hlo => by rw [u1]; exact v1 lo hlo, fun hi hhi => by rw [u1]; exact v2 hi hhi, ?_⟩
    intro hroom lo hi hlo hhi
    have ho' := DM.tour_inside sites.length _ h2 (by omega) _ hmem
    have hwle := u2.small (hroom o (by rw [hlen]; exact ho'))
    refine (u3 lo hi hlo hhi).trans ?_
    have h1 : √w ≤ cutoff := by
      rw [← Real.sqrt_sq hcut]
      exact Real.sqrt_le_sqrt hwle
    have h2 := hQ.width lo hi hlo hhi
    exact mul_le_mul_of_nonneg_left h1 (by linarith)

/-- The random chain for a Hamiltonian and a charge fits the Hamiltonian, has ends of one element without charge and rules that add up to the charge. -/
theorem randomFor_fits [AddCommGroup G] [LinearOrder G] (dist : G → G → Int) (hdist : IsDist dist) (ρ : Nat → Nat → Nat)
    (rnd : Nat → List Nat → List Nat → List Nat → 𝕜) {Ws sites : List (BT G 𝕜)} {minB : Nat} (hmin : 0 < minB) (hmin' : minB < 2 ^ 63)
    (hk : Chained 4 Ws) (hd : ∀ W ∈ Ws, W.shape.getD 1 [] = flipped (W.shape.getD 3 [])) (hp : AllPositive Ws) (hne : Ws ≠ []) {qnum : G}
    (hr : randomFor dist minB Ws qnum ρ rnd = .ok sites) :
    BlockFit sites Ws sites ∧ AllPositive sites ∧ leftDim sites = [(1, 0)] ∧ rightDim sites = [(1, 0)] ∧ (sites.map BT.rule).sum = qnum ∧
      physDims sites = physDims Ws := by
  unfold randomFor at hr
  rw [physFroms_ok Ws (fun W h => (hk.1 W h).2) hp] at hr
  simp only [bind, Except.bind, randomUnitList] at hr
  rw [if_neg (by simpa using hne)] at hr
  have hB := randomUnit_chain dist hdist minB hmin _ (by simpa using hne) (by
    intro d hd
    obtain ⟨W, hm, rfl⟩ := List.mem_map.1 hd
    have h4 := (hk.1 W hm).2
    rw [dimSize_flipped, List.getD_eq_getElem _ _ (by omega)]
    exact hp W hm _ (List.getElem_mem _)) _ _ _ _ hr
  exact chain_fits hmin hmin' hk hd hp hne hB

theorem SameOuter.sector [AddCommGroup G] [LinearOrder G] {sites s : List (BT G 𝕜)} {qnum : G} (ho : SameOuter sites s) (hk : Chained 3 s) (hne : sites ≠ [])
    (hl : leftDim sites = [(1, 0)]) (hr : rightDim sites = [(1, 0)]) (hq : (sites.map BT.rule).sum = qnum) : ChargeSector (physDims sites) s qnum := by
  intro σ hσ hx
  have hlen := SameOuter.length_eq ho
  have := amp_charge s (by rintro rfl; exact hne (List.length_eq_zero_iff.1 (by simpa using hlen.symm))) hk σ 0 0 hσ hx
  rw [ho.left, ho.right, ho.rule, ho.phys, hl, hr, hq] at this
  simpa [chargeAt, locate, physDims] using this

/-- **C116** (partial: as `C116_run_partial`, for the random chain the library draws, if it draws one, see C47).  The block DMRG given only a
Hamiltonian and a charge returns, and of every iteration logged, the last of which is what it returns: the chain has norm one, all its configurations
have the requested charge, and, but for the first iteration on three sites, the energy is within every bounds of the spectrum and is that of the chain
up to the width of the spectrum times the cutoff, if every bond uses less than the maximum. -/
theorem C116_cold_partial [AddCommGroup G] [LinearOrder G] (dist : G → G → Int) (hdist : IsDist dist) (ρ : Nat → Nat → Nat)
    (rnd : Nat → List Nat → List Nat → List Nat → 𝕜) (late : Bool) (Ws : List (BT G 𝕜))
    {fac : Blk 𝕜 → Blk 𝕜 × Blk 𝕜 × Blk 𝕜} (hfac : DenseSvd fac) (eps cutoff : ℝ) (he0 : 0 < eps) (he1 : eps ≤ 1 / 2) (hcut : 0 ≤ cutoff)
    (minB maxB : Nat) (hmin : 1 ≤ minB) (hmin' : minB < 2 ^ 63)
    (hk : Chained 4 Ws) (hd : ∀ W ∈ Ws, W.shape.getD 1 [] = flipped (W.shape.getD 3 [])) (hpW : AllPositive Ws) (hcW : Closed (Ws.map denseOf))
    (hl : late = false ∨ chargeAt (leftDim Ws) 0 = 0 ∧ chargeAt (rightDim Ws) 0 = 0) (hr : Neutral Ws)
    (hH : HermitianOp (Ws.map denseOf) (phys (Ws.map denseOf))) (h2 : 2 ≤ Ws.length) (hsm : Ws.length < 2 ^ 63)
    (dflt : Res (BT G 𝕜)) (above : ℝ → ℝ → Bool) (zeroNorm : List (BT G 𝕜) → Bool)
    (moveOc : List (BT G 𝕜) → Nat → Nat → Res (List (BT G 𝕜) × Nat)) (e0 : ℝ) (maxIt : Nat) (hmax : 1 ≤ maxIt) (qnum : G)
    {sites : List (BT G 𝕜)} (hrand : randomFor dist minB Ws qnum ρ rnd = .ok sites)
    (hreg : DM.RunAll (cutDmrgB late Ws fac eps cutoff minB maxB sites) (ReadyB late Ws sites fac eps cutoff minB maxB)
      (DM.tours Ws.length 0 maxIt) sites) :
    ∃ e fin log, coldDmrg dist ρ rnd late fac eps cutoff minB maxB dflt above zeroNorm moveOc e0 maxIt Ws qnum = .ok (e, fin, 0, log) ∧
      (∃ n, Event.iteration n e fin ∈ log ∧ ∀ n' x s', Event.iteration n' x s' ∈ log → n' ≤ n) ∧
      ∀ n x s, Event.iteration n x s ∈ log → BlockFit s Ws s ∧ physDims s = physDims Ws ∧ ChargeSector (physDims Ws) s qnum ∧
        normSq (s.map denseOf) = 1 ∧
        (n ≠ 0 ∨ Ws.length ≠ 3 →
          (∀ lo, BoundedBelow (Ws.map denseOf) (phys (Ws.map denseOf)) lo → lo ≤ x) ∧
          (∀ hi, BoundedAbove (Ws.map denseOf) (phys (Ws.map denseOf)) hi → x ≤ hi) ∧
          ((∀ o, o + 1 < s.length → usedBond (s.map denseOf) o < maxB) →
            ∀ lo hi, BoundedBelow (Ws.map denseOf) (phys (Ws.map denseOf)) lo → BoundedAbove (Ws.map denseOf) (phys (Ws.map denseOf)) hi →
            |x - energy (Ws.map denseOf) (s.map denseOf)| ≤ (hi - lo) * cutoff)) := by
  have hne : Ws ≠ [] := by rintro rfl; simp at h2
  obtain ⟨c1, c2, c3, c4, c5, c6⟩ := randomFor_fits dist hdist ρ rnd hmin hmin' hk hd hpW hne hrand
  have hlen : sites.length = Ws.length := by simpa [physDims] using congrArg List.length c6
  have hsne : sites ≠ [] := by intro e; rw [e] at hlen; simp at hlen; omega
  have hph : phys (Ws.map denseOf) = phys (sites.map denseOf) := by
    have key : ∀ l : List (BT G 𝕜), phys (l.map denseOf) = (physDims l).map dimSize := by
      intro l
      unfold Spec.phys physDims
      rw [List.map_map, List.map_map]
      refine List.map_congr_left fun x _ => ?_
      simp only [Function.comp, denseOf_dims]
      rw [getD_dimSize]
    rw [key, key, c6]
  rw [hph] at hH ⊢
  rw [← hlen] at h2 hsm hreg
  obtain ⟨e, fin, log, a1, a2, a3⟩ := C116_run_partial late Ws sites hfac eps cutoff he0 he1 hcut minB maxB hmin c1 c2 hpW
    ⟨by rw [leftEnd_dense, c3]; rfl, by rw [rightEnd_dense, c4]; rfl⟩ hcW hl hr hH h2 hsm dflt above zeroNorm moveOc e0 maxIt hmax hreg
  refine ⟨e, fin, log, ?_, a2, fun n x s hx => ?_⟩
  · unfold coldDmrg
    rw [hrand]
    simp only [bind, Except.bind]
    rw [← hlen]
    exact a1
  · obtain ⟨k1, k2, k3, -, k5⟩ := a3 n x s hx
    refine ⟨k1, k2.phys.trans c6, ?_, k3, by rw [← hlen]; exact k5⟩
    rw [← c6]
    exact SameOuter.sector k2 k1.ket hsne c3 c4 c5

end

section
variable {G : Type} [AddCommGroup G] [LinearOrder G]

/-- What the search that starts from a random state of charge `q` returns. -/
structure ColdCut (L d : Nat) (ph : Dim G) (q : G) (H : Matrix (Fin L → Fin d) (Fin L → Fin d) ℝ) (cutoff : ℝ) (maxB : Nat) (e : ℝ)
    (fin : List (BT G ℝ)) (log : List (Event (BT G ℝ) ℝ)) : Prop where
  last : ∃ n, Event.iteration n e fin ∈ log ∧ ∀ n' x s', Event.iteration n' x s' ∈ log → n' ≤ n
  logged : ∀ n x s, Event.iteration n x s ∈ log → s.map (fun t => t.shape.getD 1 []) = List.replicate L ph ∧
    Normalised (stateVec L d (s.map denseOf)) ∧ OfCharge ph q (stateVec L d (s.map denseOf)) ∧
    (∀ E, LowestIn ph q H E → E ≤ expectation H (stateVec L d (s.map denseOf))) ∧
    (n ≠ 0 ∨ L ≠ 3 → ∀ E0 E1, Lowest H E0 → Highest H E1 → E0 ≤ x ∧ x ≤ E1 ∧
      ((∀ o, o + 1 < s.length → usedBond (s.map denseOf) o < maxB) → |x - expectation H (stateVec L d (s.map denseOf))| ≤ (E1 - E0) * cutoff))

variable {L d : Nat} {ph : Dim G} {p : G} {H : Matrix (Fin L → Fin d) (Fin L → Fin d) ℝ} {Ws : List (BT G ℝ)}

omit [LinearOrder G] in
theorem BlockOperator.physDims (h : BlockOperator L d ph p H Ws) : BN.physDims Ws = List.replicate L ph := by
  unfold BN.physDims
  rw [List.eq_replicate_iff]
  refine ⟨by rw [List.length_map, h.len], fun x hx => ?_⟩
  obtain ⟨W, hW, rfl⟩ := List.mem_map.1 hx
  exact (h.outer W hW).2.1

theorem cold_cut {q : G} (hO : BlockOperator L d ph p H Ws) (hd : dimSize ph = d) (hL : 2 ≤ L) (hsm : L < 2 ^ 63) (late : Bool) (hl : late = false ∨ p = 0)
    (dist : G → G → Int) (hdist : IsDist dist) (ρ : Nat → Nat → Nat) (rnd : Nat → List Nat → List Nat → List Nat → ℝ)
    {fac : Blk ℝ → Blk ℝ × Blk ℝ × Blk ℝ} (hfac : DenseSvd fac) (eps cutoff : ℝ) (he0 : 0 < eps) (he1 : eps ≤ 1 / 2) (hcut : 0 ≤ cutoff)
    (minB maxB : Nat) (hmin : 1 ≤ minB) (hmin' : minB < 2 ^ 63)
    (dflt : Res (BT G ℝ)) (above : ℝ → ℝ → Bool) (zeroNorm : List (BT G ℝ) → Bool)
    (moveOc : List (BT G ℝ) → Nat → Nat → Res (List (BT G ℝ) × Nat)) (e0 : ℝ) (maxIt : Nat) (hmax : 1 ≤ maxIt)
    {sites : List (BT G ℝ)} (hrand : randomFor dist minB Ws q ρ rnd = .ok sites)
    (hreg : DM.RunAll (cutDmrgB late Ws fac eps cutoff minB maxB sites) (ReadyB late Ws sites fac eps cutoff minB maxB) (DM.tours L 0 maxIt) sites) :
    ∃ e fin log, coldDmrg dist ρ rnd late fac eps cutoff minB maxB dflt above zeroNorm moveOc e0 maxIt Ws q = .ok (e, fin, 0, log) ∧
      ColdCut L d ph q H cutoff maxB e fin log := by
  have hlen := hO.len
  have hpW : phys (Ws.map denseOf) = List.replicate L d := phys_replicate hO.physDims hd
  subst hlen
  obtain ⟨e, fin, log, a1, a2, a3⟩ := C116_cold_partial dist hdist ρ rnd late Ws hfac eps cutoff he0 he1 hcut minB maxB hmin hmin' hO.chain
    (fun W hW => by rw [(hO.outer W hW).2.1, (hO.outer W hW).2.2, flipped_flipped]) hO.positive hO.closed
    (hl.imp id fun h => by rw [hO.ends.1, hO.ends.2, h]; simp) hO.neutral (by rw [hpW]; exact DM.hermitianOp_of hO.matrix hO.herm) hL hsm
    dflt above zeroNorm moveOc e0 maxIt hmax q hrand hreg
  refine ⟨e, fin, log, a1, a2, fun n x s hx => ?_⟩
  obtain ⟨k1, k2, k3, k4, k5⟩ := a3 n x s hx
  have hp1 := k2.trans hO.physDims
  have hp2 := phys_replicate hp1 hd
  have hn := (DM.normSq_eq hp2).1 k4
  have hls : s.length = Ws.length := by simpa [BN.physDims] using congrArg List.length k2
  have hq : OfCharge ph q (stateVec Ws.length d (s.map denseOf)) := by
    intro σ hσ
    have := k3 (List.ofFn fun i => (σ i).val) (by simp [hls]) hσ
    rw [hO.physDims, configCharge_ofFn] at this
    exact this
  refine ⟨hp1, hn, hq, fun E hE => ?_, fun h3 E0 E1 hE0 hE1 => ?_⟩
  · have := lowestIn_le hO.herm (hO.keeps (by omega)) hE _ hq
    rw [(DM.normalised_iff _).1 hn, mul_one] at this
    exact this
  · obtain ⟨k6, k7, k8⟩ := k5 h3
    have hlo := DM.boundedBelow_of hO.matrix (DM.lowest_le hO.herm hE0)
    have hhi := DM.boundedAbove_of hO.matrix (DM.le_highest hO.herm hE1)
    rw [← hpW] at hlo hhi
    refine ⟨k6 _ hlo, k7 _ hhi, fun hb => ?_⟩
    rw [← hO.matrix, ← DM.energy_eq hp2]
    exact k8 hb _ _ hlo hhi

/-- **C116** (partial: as `C116_run_partial`).  The search given the Hubbard Hamiltonian the library makes for conserved charges, and a charge `q`, from the
random state the library draws.  It returns; the states logged, the last of which is the one returned, have norm one and charge `q`, so their
energies are at least the lowest of that charge; and, but for the first iteration on three sites, the energy logged is within the spectrum of
`∑ (U n↑ n↓ - μ (n↑ + n↓)) + ∑ (c†_i c_{i+1} + c†_{i+1} c_i)` and, with bonds below the maximum, off by at most the cutoff times its width. -/
theorem C116_hubbard_partial {fac : Blk ℝ → Blk ℝ × Blk ℝ × Blk ℝ} (hfac : DenseSvd fac) (eps : ℝ) (he0 : 0 < eps) (he1 : eps ≤ 1 / 2)
    (U mu : ℝ) (L : Nat) (hL : 2 ≤ L) (hsm : L < 2 ^ 63) (phys : BT G ℝ) (ph : Dim G) (hs : phys.shape = [ph])
    (hn : ph.length < 2 ^ 63) (hps : ∀ s ∈ ph, 0 < s.1) (h4 : dimSize ph = 4) (hq0 : chargeAt ph 0 + chargeAt ph 0 = 0)
    (hq1 : chargeAt ph 0 + chargeAt ph 3 = chargeAt ph 1 + chargeAt ph 2) (hm : mu = 0 ∨ 1 / 10 ^ 4 < |mu|)
    (hU : U - 2 * mu = 0 ∨ 1 / 10 ^ 4 < |U - 2 * mu|) :
    ∃ N Ws, (∀ fuel, N ≤ fuel → hubbardB fuel fac eps U mu L phys = some (.ok Ws)) ∧
      ∀ (late : Bool) (_ : late = false ∨ chargeAt ph 0 = 0) (dist : G → G → Int) (_ : IsDist dist) (ρ : Nat → Nat → Nat)
        (rnd : Nat → List Nat → List Nat → List Nat → ℝ) (cutoff : ℝ) (minB maxB : Nat), 0 ≤ cutoff → 1 ≤ minB → minB < 2 ^ 63 →
      ∀ (dflt : Res (BT G ℝ)) (above : ℝ → ℝ → Bool) (zeroNorm : List (BT G ℝ) → Bool) (moveOc : List (BT G ℝ) → Nat → Nat → Res (List (BT G ℝ) × Nat))
        (e0 : ℝ) (maxIt : Nat), 1 ≤ maxIt → ∀ (q : G) (sites : List (BT G ℝ)), randomFor dist minB Ws q ρ rnd = .ok sites →
        DM.RunAll (cutDmrgB late Ws fac eps cutoff minB maxB sites) (ReadyB late Ws sites fac eps cutoff minB maxB) (DM.tours L 0 maxIt) sites →
        ∃ e fin log, coldDmrg dist ρ rnd late fac eps cutoff minB maxB dflt above zeroNorm moveOc e0 maxIt Ws q = .ok (e, fin, 0, log) ∧
          ColdCut L 4 ph q (hubbardH U mu L) cutoff maxB e fin log := by
  obtain ⟨N, Ws, h1, hO⟩ := hubbardB_operator hfac eps he0 he1 U mu L hL phys ph hs hn hps h4 hq0 hq1 hm hU
  exact ⟨N, Ws, h1, fun late hl dist hdist ρ rnd cutoff minB maxB hcut hmin hmin' dflt above zeroNorm moveOc e0 maxIt hmax q sites hr hreg =>
    cold_cut hO h4 hL hsm late hl dist hdist ρ rnd hfac eps cutoff he0 he1 hcut minB maxB hmin hmin' dflt above zeroNorm moveOc e0 maxIt hmax hr hreg⟩

/-- **C116** (partial: as `C116_run_partial`).  The same with the Heisenberg Hamiltonian, `-J/4 ∑ (σx σx + σy σy + σz σz)`. -/
theorem C116_heisenberg_partial {fac : Blk ℝ → Blk ℝ × Blk ℝ × Blk ℝ} (hfac : DenseSvd fac) (eps : ℝ) (he0 : 0 < eps) (he1 : eps ≤ 1 / 2)
    (J : ℝ) (L : Nat) (hL : 2 ≤ L) (hsm : L < 2 ^ 63) (phys : BT G ℝ) (ph : Dim G) (hs : phys.shape = [ph])
    (hn : ph.length < 2 ^ 63) (hps : ∀ s ∈ ph, 0 < s.1) (h2 : dimSize ph = 2) (hq0 : chargeAt ph 0 + chargeAt ph 0 = chargeAt ph 1)
    (hq1 : chargeAt ph 1 + chargeAt ph 1 = chargeAt ph 0) (hJ : 4 / 10 ^ 4 < |J|) :
    ∃ N Ws, (∀ fuel, N ≤ fuel → heisenbergB fuel fac eps J L phys = some (.ok Ws)) ∧
      ∀ (late : Bool) (dist : G → G → Int) (_ : IsDist dist) (ρ : Nat → Nat → Nat)
        (rnd : Nat → List Nat → List Nat → List Nat → ℝ) (cutoff : ℝ) (minB maxB : Nat), 0 ≤ cutoff → 1 ≤ minB → minB < 2 ^ 63 →
      ∀ (dflt : Res (BT G ℝ)) (above : ℝ → ℝ → Bool) (zeroNorm : List (BT G ℝ) → Bool) (moveOc : List (BT G ℝ) → Nat → Nat → Res (List (BT G ℝ) × Nat))
        (e0 : ℝ) (maxIt : Nat), 1 ≤ maxIt → ∀ (q : G) (sites : List (BT G ℝ)), randomFor dist minB Ws q ρ rnd = .ok sites →
        DM.RunAll (cutDmrgB late Ws fac eps cutoff minB maxB sites) (ReadyB late Ws sites fac eps cutoff minB maxB) (DM.tours L 0 maxIt) sites →
        ∃ e fin log, coldDmrg dist ρ rnd late fac eps cutoff minB maxB dflt above zeroNorm moveOc e0 maxIt Ws q = .ok (e, fin, 0, log) ∧
          ColdCut L 2 ph q (heisenbergH J L) cutoff maxB e fin log := by
  obtain ⟨N, Ws, h1, hO⟩ := heisenbergB_operator hfac eps he0 he1 J L hL phys ph hs hn hps h2 hq0 hq1 hJ
  exact ⟨N, Ws, h1, fun late dist hdist ρ rnd cutoff minB maxB hcut hmin hmin' dflt above zeroNorm moveOc e0 maxIt hmax q sites hr hreg =>
    cold_cut hO h2 hL hsm late (.inr rfl) dist hdist ρ rnd hfac eps cutoff he0 he1 hcut minB maxB hmin hmin' dflt above zeroNorm moveOc e0 maxIt hmax hr hreg⟩

end

end BN
end QuantiT
