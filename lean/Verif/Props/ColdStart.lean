import Verif.Lemmas.ColdStart
import Verif.Model.RandomDense
/-
The dense DMRG from a random chain, which is neither normalised nor in canonical form (C96).
-/
namespace QuantiT
namespace DM
open Finset Spec MP
variable {𝕜 : Type} [RCLike 𝕜]

/-- The chains for which the update at the pair `o`, `o + 1` is understood.  On a normalised chain in canonical form around the pair:
those of C73.  On any other: the eigensolver does not annihilate the two-site tensor (by `C96_moving` it does not
unless the tensor is an eigenvector of the effective Hamiltonian). -/
structure Ready (Ws : List (Blk 𝕜)) (o : Nat) (s : List (Blk 𝕜)) : Prop where
  size : ∀ A B, s[o]? = some A → s[o + 1]? = some B → (A.dims.take 2 ++ B.dims.drop 1).prod < 2 ^ 63
  regular : PairCanonical s o → normSq s = 1 → Regular Ws s o
  alive : ¬ (PairCanonical s o ∧ normSq s = 1) → ∀ E θ, Found Ws s o E θ → ∃ q ∈ configs θ.dims, θ.f q ≠ 0

/-- **C96** (what the eigensolver annihilates).  On any closed chain, normalised or not: if the two-site tensor is no eigenvector of the
effective Hamiltonian then the tensor the eigensolver returns is not zero. -/
theorem C96_moving (Ws s : List (Blk 𝕜)) (o : Nat) (hF : Fit s Ws s) (hc : Closed s) (hcW : Closed Ws) (ho : o + 1 < s.length)
    (hst : ∀ ψ ψ', PairTensors Ws s o ψ ψ' → ¬ Stationary ψ ψ') (E : ℝ) (θ : Blk 𝕜) (hf : Found Ws s o E θ) :
    ∃ q ∈ configs θ.dims, θ.f q ≠ 0 :=
  found_moving Ws s o hF hc hcW ho hst E θ hf

/-- What every update keeps, whatever the start. -/
structure Loose (Ws : List (Blk 𝕜)) (ds : List Nat) (s : List (Blk 𝕜)) (c : Nat) : Prop where
  fit : Fit s Ws s
  closed : Closed s
  phys : phys s = ds
  left : ∀ i A, s[i]? = some A → i < c → LeftOrth A

theorem Loose.length {Ws : List (Blk 𝕜)} {ds : List Nat} {s : List (Blk 𝕜)} {c : Nat} (h : Loose Ws ds s c) : s.length = ds.length := by
  rw [← h.phys]; simp [Spec.phys]

theorem Good.loose {Ws : List (Blk 𝕜)} {ds : List Nat} {s : List (Blk 𝕜)} {c : Nat} (h : Good Ws ds s c) : Loose Ws ds s c :=
  ⟨h.fit, h.closed, h.phys, h.canon.1⟩

theorem Good.pair {Ws : List (Blk 𝕜)} {ds : List Nat} {s : List (Blk 𝕜)} {c o : Nat} (h : Good Ws ds s c) (hc : o = c ∨ o + 1 = c) :
    PairCanonical s o :=
  ⟨fun i A h1 h2 => h.canon.1 i A h1 (by omega), fun i A h1 h2 => h.canon.2 i A h1 (by omega)⟩

/-- What an update does, whatever the start. -/
structure ColdStep (Ws : List (Blk 𝕜)) (ds : List Nat) (cutoff : ℝ) (minB maxB : Nat) (o : Nat) (f : Bool) (s : List (Blk 𝕜)) (x : ℝ)
    (s' : List (Blk 𝕜)) : Prop where
  bond : bondAt s' o ≤ max minB maxB
  other : ∀ i, i ≠ o → bondAt s' i = bondAt s i
  last : o + 2 = ds.length → Good Ws ds s' (if f then o + 1 else o)
  good : ∀ c, Good Ws ds s c → (o = c ∨ o + 1 = c) → CutStep Ws ds cutoff minB maxB o s x s' ∧ Good Ws ds s' (if f then o + 1 else o)

theorem bond_pair {s : List (Blk 𝕜)} {o : Nat} {A B : Blk 𝕜} {k : Nat} (h : PairFits s o A B k) (i : Nat) (hi : i ≠ o) :
    bondAt (withPair s o A B) i = bondAt s i := by
  obtain ⟨A0, B0, n, a, m, b, n', g1, g2, h1, h2, h3, h4⟩ := h
  have l2 := (List.getElem?_eq_some_iff.1 g2).1
  unfold bondAt withPair
  by_cases h' : i = o + 1
  · subst h'
    rw [List.getElem?_set_self (by simp; omega), g2]
    simp [h2, h4]
  · rw [List.getElem?_set_ne (by omega), List.getElem?_set_ne (by omega)]

theorem cold_steps {Ws : List (Blk 𝕜)} {ds : List Nat} {fac : Blk 𝕜 → Blk 𝕜 × Blk 𝕜 × Blk 𝕜} (hfac : DenseSvd fac)
    (cutoff : ℝ) (hcut : 0 ≤ cutoff) (minB maxB : Nat) (hmin : 1 ≤ minB) (hcW : Closed Ws) (hH : HermitianOp Ws ds) :
    Steps (cutDmrg Ws fac cutoff minB maxB) (Ready Ws) (Loose Ws ds) (ColdStep Ws ds cutoff minB maxB) ds.length := by
  intro s c o f hg hc hin hp
  by_cases hcan : PairCanonical s o ∧ normSq s = 1
  · obtain ⟨x, s', v, w, a1, a2, a3, a4, a5, a6, a7, a8, a9, _, _, b1⟩ := C86_update_partial Ws s hfac o f cutoff hcut minB maxB (.inl hmin) hg.fit
      hg.closed hcW (by rw [hg.phys]; exact hH) (by rw [hg.length]; exact hin) hcan.1 hcan.2 (hp.regular hcan.1 hcan.2) hp.size
    rw [hg.phys] at a4 a7 a8 b1
    have hG : Good Ws ds s' (if f then o + 1 else o) := ⟨a2, a3, a4, a5, a6⟩
    refine ⟨x, s', a1, hG.loose, a8.limit.2, fun i hi => bond_other a8 i hi, fun _ => hG, fun _ _ _ => ⟨⟨⟨v, w, a7, a8, b1⟩, a9, fun lo hi h1 h2 => ?_⟩, hG⟩⟩
    have h := (h1 v).trans (h2 v)
    have hn := a8.norm
    unfold vecNormSq at hn
    rw [hn] at h
    linarith
  · obtain ⟨x, _, A', B', _, a1, a2, a3, a4, a5, a6, a7, a8, _, a9⟩ := cold_update Ws s hfac o f cutoff hcut minB maxB hmin hg.fit hg.closed hcW
      (by rw [hg.length]; exact hin) (hp.alive hcan) hp.size
    have ho : o + 1 < s.length := by rw [hg.length]; exact hin
    have hleft : ∀ i A, (withPair s o A' B')[i]? = some A → i < (if f then o + 1 else o) → LeftOrth A := by
      intro i A hA hi
      unfold withPair at hA
      by_cases hxo : i < o
      · rw [List.getElem?_set_ne (by omega), List.getElem?_set_ne (by omega)] at hA
        exact hg.left i A hA (by omega)
      · cases f with
        | true =>
          have : i = o := by simp at hi; omega
          subst this
          rw [List.getElem?_set_ne (by omega), List.getElem?_set_self (by omega)] at hA
          cases hA
          exact a5 rfl
        | false => simp at hi; omega
    have hphys : Spec.phys (withPair s o A' B') = ds := a4.trans hg.phys
    refine ⟨x, _, a1, ⟨a2, a3, hphys, hleft⟩, a7, fun i hi => bond_pair a8 i hi, fun hl => ?_, fun c' hG hc' =>
      absurd ⟨hG.pair hc', hG.norm⟩ hcan⟩
    have hpc : PairCanonical s o := by
      refine ⟨fun i A h1 h2 => hg.left i A h1 (by omega), fun i A h1 h2 => ?_⟩
      have := (List.getElem?_eq_some_iff.1 h1).1
      rw [hg.length] at this
      omega
    refine ⟨a2, a3, hphys, ⟨hleft, fun i A hA hi => ?_⟩, (a9 hpc).1⟩
    have hlt := (List.getElem?_eq_some_iff.1 hA).1
    have hlen : (withPair s o A' B').length = ds.length := by unfold withPair; simp; exact hg.length
    cases f with
    | true => simp at hi; omega
    | false =>
      have : i = o + 1 := by simp at hi; omega
      subst this
      unfold withPair at hA
      rw [List.getElem?_set_self (by simp; omega)] at hA
      cases hA
      exact a6 rfl

/-! ### Walks -/

theorem walk_append {Q : Nat → Bool → List (Blk 𝕜) → ℝ → List (Blk 𝕜) → Prop} : ∀ (l l' : List (Nat × Bool)) (s s' : List (Blk 𝕜)) (e e' : Option ℝ),
    Walk Q (l ++ l') s e e' s' → ∃ e1 s1, Walk Q l s e e1 s1 ∧ Walk Q l' s1 e1 e' s'
  | [], l', s, s', e, e', h => ⟨e, s, .nil s e, h⟩
  | (o, f) :: l, l', s, s', e, e', h => by
    cases h with
    | cons hq hw =>
      obtain ⟨e1, s1, a, b⟩ := walk_append l l' _ _ _ _ hw
      exact ⟨e1, s1, .cons hq a, b⟩

variable {Ws : List (Blk 𝕜)} {ds : List Nat} {cutoff : ℝ} {minB maxB : Nat}

theorem walk_cold_bonds {l : List (Nat × Bool)} {s s' : List (Blk 𝕜)} {e e' : Option ℝ}
    (h : Walk (ColdStep Ws ds cutoff minB maxB) l s e e' s') (o : Nat)
    (ho : (∃ f, (o, f) ∈ l) ∨ bondAt s o ≤ max minB maxB) : bondAt s' o ≤ max minB maxB := by
  induction h with
  | nil s e =>
    rcases ho with ⟨f, hf⟩ | ho
    · cases hf
    · exact ho
  | @cons o1 f1 l s s1 s' x e e' hq hw ih =>
    apply ih
    by_cases h1 : o = o1
    · subst h1
      exact .inr hq.bond
    · rcases ho with ⟨f, hf⟩ | ho
      · rcases List.mem_cons.1 hf with hf | hf
        · cases hf; exact absurd rfl h1
        · exact .inl ⟨f, hf⟩
      · right
        rw [hq.other o h1]
        exact ho

/-- From a good chain on, all updates are those of C86. -/
theorem walk_good {l : List (Nat × Bool)} {s s' : List (Blk 𝕜)} {e e' : Option ℝ}
    (h : Walk (ColdStep Ws ds cutoff minB maxB) l s e e' s') : ∀ c, Good Ws ds s c → Follows c l →
    Walk (fun o _ s x s' => CutStep Ws ds cutoff minB maxB o s x s') l s e e' s' ∧ Good Ws ds s' (after c l) := by
  induction h with
  | nil s e => exact fun c hg _ => ⟨.nil s e, hg⟩
  | @cons o f l s s1 s' x e e' hq hw ih =>
    intro c hg hf
    obtain ⟨a, b⟩ := hq.good c hg hf.1
    obtain ⟨c1, c2⟩ := ih _ b hf.2
    exact ⟨.cons a c1, c2⟩

/-- A sweep from the left end updates the last pair, and goes on unless there are three sites. -/
theorem tour_zero (len : Nat) (h2 : 2 ≤ len) : ∃ l1 l2, tour len 0 = l1 ++ (len - 2, false) :: l2 ∧ Follows (len - 2) l2 ∧
    after (len - 2) l2 ≤ 1 ∧ (len ≠ 3 → l2 ≠ []) := by
  by_cases h : len = 2
  · subst h
    exact ⟨[], [(0, false)], by simp [tour], by simp [Follows], by simp [after], by simp⟩
  · obtain ⟨m, rfl⟩ : ∃ m, len = m + 3 := ⟨len - 3, by omega⟩
    obtain ⟨b1, b2⟩ := follows_back m m (m + 1) (by omega) (.inr rfl)
    refine ⟨(List.range (m + 1)).map fun j => (j, true), (List.range m).map fun j => (m - j, false), ?_, b1, ?_, ?_⟩
    · unfold tour
      rw [if_neg (by omega), show m + 3 - 2 = m + 1 by omega, Nat.sub_zero, List.range_succ_eq_map (n := m)]
      simp only [List.range_zero, List.map_nil, List.nil_append, List.map_cons, List.map_map]
      congr 2
      apply List.map_congr_left
      intro j _
      simp
    · rw [show m + 3 - 2 = m + 1 by omega, b2]
      split <;> omega
    · intro h3 h4
      simp at h4
      omega

/-- **C96** (partial: for the chains a run meets see `Ready`).  A whole run of the dense DMRG with its truncated SVD from any closed chain with
its center at the left end, as the random one the library starts from when given no state: neither canonical form nor norm one is
asked for.  It returns; the state returned has norm one; the energy returned is the one of the last iteration logged, whose
state has the energy of the state returned; of every iteration logged the state has norm one and no bond larger than allowed;
and, but for the first iteration on three sites, the energy logged lies within every bounds of the spectrum and, if the
maximum of the bond is not reached, is that of the state up to the width of the spectrum times the cutoff. -/
theorem C96_run_partial (Ws sites : List (Blk 𝕜)) {fac : Blk 𝕜 → Blk 𝕜 × Blk 𝕜 × Blk 𝕜} (hfac : DenseSvd fac)
    {svd1 : Blk 𝕜 → Nat → Blk 𝕜 × Blk 𝕜 × Blk 𝕜} (hsvd1 : SvdOk svd1) (cutoff : ℝ) (hcut : 0 ≤ cutoff) (minB maxB : Nat) (hmin : 1 ≤ minB)
    (hF : Fit sites Ws sites) (hc : Closed sites) (hcW : Closed Ws) (hH : HermitianOp Ws (phys sites))
    (h2 : 2 ≤ sites.length) (hsm : sites.length < 2 ^ 63) (hz : 1e-15 ≤ normSq sites)
    (dflt : Res (Blk 𝕜)) (above : ℝ → ℝ → Bool) (e0 : ℝ) (maxIt : Nat) (hmax : 1 ≤ maxIt)
    (hreg : RunAll (cutDmrg Ws fac cutoff minB maxB) (Ready Ws) (tours sites.length 0 maxIt) sites) :
    ∃ e fin oc' log, dmrg true (cutDmrg Ws fac cutoff minB maxB) dflt above tooSmall (moveOcDense star svd1) e0
        maxIt sites.length sites 0 = .ok (e, fin, oc', log) ∧
      phys fin = phys sites ∧ normSq fin = 1 ∧
      (∃ n s, Event.iteration n e s ∈ log ∧ (∀ n' x s', Event.iteration n' x s' ∈ log → n' ≤ n) ∧ energy Ws fin = energy Ws s) ∧
      ∀ n x s, Event.iteration n x s ∈ log → normSq s = 1 ∧ phys s = phys sites ∧
        (∀ o, o + 1 < s.length → bondAt s o ≤ max minB maxB) ∧
        (n ≠ 0 ∨ sites.length ≠ 3 →
          (∀ lo, BoundedBelow Ws (phys sites) lo → lo ≤ x) ∧ (∀ hi, BoundedAbove Ws (phys sites) hi → x ≤ hi) ∧
          ((∀ o, o + 1 < s.length → bondAt s o < maxB) → ∀ lo hi, BoundedBelow Ws (phys sites) lo → BoundedAbove Ws (phys sites) hi →
            |x - energy Ws s| ≤ (hi - lo) * cutoff)) := by
  have hds : (phys sites).length = sites.length := by simp [Spec.phys]
  have hL := cold_steps (ds := phys sites) hfac cutoff hcut minB maxB hmin hcW hH
  rw [hds] at hL
  have hq : startPair sites.length 0 = 0 := by unfold startPair; split <;> omega
  have hreg' : RunAll (cutDmrg Ws fac cutoff minB maxB) (Ready Ws) (tours sites.length (startPair sites.length 0) maxIt) sites := by
    rw [hq]; exact hreg
  obtain ⟨e, fin, oc', log, s, h, a1, a2, a3, a4, a5, a6, a7, a8, a9⟩ := dmrg_steps hL h2 hsm 0 (by omega)
    ⟨hF, hc, rfl, fun i A _ hi => by omega⟩ true dflt above tooSmall
    (fun _ => by simp only [tooSmall, decide_eq_false_iff_not, not_or, not_lt]; exact ⟨by intro h; rw [h] at hz; norm_num at hz, hz⟩)
    (moveOcDense star svd1)
    (fun _ s c hg => by
      obtain ⟨m', e1, _⟩ := C45_move_oc hsvd1 ⟨s, 1⟩ hg.fit.ket (by show 1 < s.length; rw [hg.length]; omega) 0
        (by show 0 < s.length; rw [hg.length]; omega)
      unfold moveOcDense
      rw [e1]
      exact ⟨_, _, rfl⟩) e0 maxIt hmax hreg'
  rw [hq] at a6 a7 a8
  obtain ⟨l1, l2, t1, t2, t3, t4⟩ := tour_zero sites.length h2
  -- a sweep leaves a good chain, and its updates after the last pair are those of C86
  have hsweep : ∀ (x : List (Blk 𝕜)) (y : ℝ × List (Blk 𝕜)), Walk (ColdStep Ws (phys sites) cutoff minB maxB) (tour sites.length 0) x none (some y.1) y.2 →
      (∃ c, (0 = c ∨ 0 + 1 = c) ∧ Good Ws (phys sites) y.2 c) ∧ ∃ e1 s1, Walk (fun o _ s x s' => CutStep Ws (phys sites) cutoff minB maxB o s x s') l2 s1 e1 (some y.1) y.2 := by
    intro x y hw
    rw [t1] at hw
    obtain ⟨e1, s1, _, hw⟩ := walk_append _ _ _ _ _ _ hw
    cases hw with
    | cons hq' hw =>
      have hg := hq'.last (by rw [hds]; omega)
      simp only [Bool.false_eq_true, if_false] at hg
      obtain ⟨b1, b2⟩ := walk_good hw _ hg t2
      exact ⟨⟨_, by omega, b2⟩, _, _, b1⟩
  have hgood : ∀ (k : Nat) (y : ℝ × List (Blk 𝕜)), h[k + 1]? = some y → ∃ c, (0 = c ∨ 0 + 1 = c) ∧ Good Ws (phys sites) y.2 c := by
    intro k y hy
    have hk := (List.getElem?_eq_some_iff.1 hy).1
    obtain ⟨x, hx⟩ : ∃ x, h[k]? = some x := ⟨_, List.getElem?_eq_getElem (by omega)⟩
    exact (hsweep _ _ (a8 k x y hx hy)).1
  obtain ⟨cl, _, hg'⟩ := hgood (h.length - 2) _ (by rw [show h.length - 2 + 1 = h.length - 1 by omega]; exact a5)
  simp only at hg'
  have hfin : phys fin = phys sites ∧ normSq fin = 1 ∧ energy Ws fin = energy Ws s := by
    unfold Finish at a6
    split at a6
    · obtain ⟨s', o', q1, q2, q3, q4⟩ := cut_move (by omega) hsvd1 hg'
      rw [q1] at a6
      cases a6
      exact ⟨q2, q3, q4⟩
    · rw [a6.1]
      exact ⟨hg'.phys, hg'.norm, rfl⟩
  refine ⟨e, fin, oc', log, a1, hfin.1, hfin.2.1, ⟨h.length - 2, s, ?_, ?_, hfin.2.2⟩, ?_⟩
  · rw [a9, show h.length - 2 + 1 = h.length - 1 by omega]
    exact a5
  · intro n' x s' hm
    have := (List.getElem?_eq_some_iff.1 ((a9 _ _ _).1 hm)).1
    omega
  · intro n x s1 hm
    have hx := (a9 _ _ _).1 hm
    have hlt := (List.getElem?_eq_some_iff.1 hx).1
    obtain ⟨c, _, hg⟩ := hgood _ _ hx
    simp only at hg
    have hlen : s1.length = sites.length := by rw [hg.length, hds]
    obtain ⟨y, hy⟩ : ∃ y, h[n]? = some y := ⟨_, List.getElem?_eq_getElem (by omega)⟩
    have hw := a8 n y _ hy hx
    refine ⟨hg.norm, hg.phys, fun o' ho' => walk_cold_bonds hw o' (.inl (mem_tour sites.length _ o' h2 (by omega) (by omega))), fun hn => ?_⟩
    -- the last update of the sweep
    obtain ⟨o, f, s0, hmem, hQ⟩ : ∃ o f s0, (o, f) ∈ tour sites.length 0 ∧ CutStep Ws (phys sites) cutoff minB maxB o s0 x s1 := by
      by_cases h0 : n = 0
      · obtain ⟨_, e1, s2, hw2⟩ := hsweep _ _ hw
        obtain ⟨o, f, s0, x', hmem, hxx, hQ⟩ := walk_last hw2 (t4 (by tauto))
        cases hxx
        exact ⟨o, f, s0, by rw [t1]; simp [hmem], hQ⟩
      · obtain ⟨cy, hcy, hgy⟩ := hgood (n - 1) y (by rw [show n - 1 + 1 = n by omega]; exact hy)
        obtain ⟨f1, _⟩ := follows_tour sites.length 0 cy h2 (by omega) hcy
        obtain ⟨hw2, _⟩ := walk_good hw cy hgy f1
        obtain ⟨o, f, s0, x', hmem, hxx, hQ⟩ := walk_last hw2 (tour_ne sites.length _ h2)
        cases hxx
        exact ⟨o, f, s0, hmem, hQ⟩
    obtain ⟨v, w, u1, u2, u3⟩ := hQ.trunc
    obtain ⟨v1, v2⟩ := vec_bounds (Ws := Ws) u2.norm
    refine ⟨fun lo hlo => by rw [u1]; exact v1 lo hlo, fun hi hhi => by rw [u1]; exact v2 hi hhi, ?_⟩
    intro hroom lo hi hlo hhi
    have ho' := tour_inside sites.length _ h2 (by omega) _ hmem
    have hwle := u2.small (hroom o (by rw [hlen]; exact ho'))
    refine (u3 lo hi hlo hhi).trans ?_
    have h1 : √w ≤ cutoff := by
      rw [← Real.sqrt_sq hcut]
      exact Real.sqrt_le_sqrt hwle
    have h2 := hQ.width lo hi hlo hhi
    exact mul_le_mul_of_nonneg_left h1 (by linarith)

end DM
end QuantiT
