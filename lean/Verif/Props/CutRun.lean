import Verif.Props.CutUpdate
import Verif.Lemmas.Descent3
/-
Whole runs of the dense DMRG with truncation (C87).
-/
namespace QuantiT
namespace DM
open Finset Spec MP
variable {𝕜 : Type} [RCLike 𝕜]

/-- The chains for which `C86_update_partial` speaks of the update at the pair `o`, `o + 1`. -/
def CutAdmissible (Ws : List (Blk 𝕜)) (o : Nat) (s : List (Blk 𝕜)) : Prop :=
  Regular Ws s o ∧ ∀ A B, s[o]? = some A → s[o + 1]? = some B → (A.dims.take 2 ++ B.dims.drop 1).prod < 2 ^ 63

/-- The update at the pair `o`, `o + 1` leaves a bond smaller than `maxB`. -/
def Room {E : Type} (d : Dmrg (Blk 𝕜) E ℝ) (maxB : Nat) (o : Nat) (s : List (Blk 𝕜)) : Prop :=
  ∀ f r, d.fresh o f s = .ok r → bondAt r.2 o < maxB

/-- What an update does, for the analysis of runs. -/
structure CutStep (Ws : List (Blk 𝕜)) (ds : List Nat) (cutoff : ℝ) (minB maxB : Nat) (o : Nat) (s : List (Blk 𝕜)) (x : ℝ) (s' : List (Blk 𝕜)) : Prop where
  trunc : ∃ v w, x = vecEnergy Ws ds v ∧ Truncation ds v s s' o cutoff minB maxB w ∧
    ∀ lo hi, BoundedBelow Ws ds lo → BoundedAbove Ws ds hi → |x - energy Ws s'| ≤ (hi - lo) * √w
  lower : x ≤ energy Ws s
  width : ∀ lo hi, BoundedBelow Ws ds lo → BoundedAbove Ws ds hi → lo ≤ hi

theorem cut_steps {Ws : List (Blk 𝕜)} {ds : List Nat} {fac : Blk 𝕜 → Blk 𝕜 × Blk 𝕜 × Blk 𝕜} (hfac : DenseSvd fac)
    (cutoff : ℝ) (hcut : 0 ≤ cutoff) (minB maxB : Nat) (hmin : 1 ≤ minB ∨ cutoff < 1 ∧ 1 ≤ maxB) (hcW : Closed Ws) (hH : HermitianOp Ws ds)
    (P : Nat → List (Blk 𝕜) → Prop) (hP : ∀ o s, P o s → CutAdmissible Ws o s) :
    Steps (cutDmrg Ws fac cutoff minB maxB) P (Good Ws ds)
      (fun o f s x s' => CutStep Ws ds cutoff minB maxB o s x s' ∧ (cutDmrg Ws fac cutoff minB maxB).fresh o f s = .ok (x, s') ∧ P o s) ds.length := by
  intro s c o f hg hc hin hp
  have hpc : PairCanonical s o :=
    ⟨fun i A h1 h2 => hg.canon.1 i A h1 (by omega), fun i A h1 h2 => hg.canon.2 i A h1 (by omega)⟩
  obtain ⟨x, s', v, w, a1, a2, a3, a4, a5, a6, a7, a8, a9, _, _, b1⟩ := C86_update_partial Ws s hfac o f cutoff hcut minB maxB hmin hg.fit hg.closed hcW
    (by rw [hg.phys]; exact hH) (by rw [hg.length]; exact hin) hpc hg.norm (hP o s hp).1 (hP o s hp).2
  rw [hg.phys] at a4 a7 a8 b1
  refine ⟨x, s', a1, ⟨a2, a3, a4, a5, a6⟩, ⟨⟨v, w, a7, a8, b1⟩, a9, fun lo hi h1 h2 => ?_⟩, a1, hp⟩
  have h := (h1 v).trans (h2 v)
  have hn := a8.norm
  unfold vecNormSq at hn
  rw [hn] at h
  linarith

/-! ### Bonds -/

theorem bond_other {ds : List Nat} {v : List Nat → 𝕜} {s s' : List (Blk 𝕜)} {o : Nat} {cutoff : ℝ} {minB maxB : Nat} {w : ℝ}
    (h : Truncation ds v s s' o cutoff minB maxB w) (i : Nat) (hi : i ≠ o) : bondAt s' i = bondAt s i := by
  obtain ⟨A, B, rfl, A0, B0, n, a, m, b, n', g1, g2, h1, h2, h3, h4⟩ := h.pair
  have l2 := (List.getElem?_eq_some_iff.1 g2).1
  unfold bondAt withPair
  by_cases h' : i = o + 1
  · subst h'
    rw [List.getElem?_set_self (by simp; omega), g2]
    simp [h2, h4]
  · rw [List.getElem?_set_ne (by omega), List.getElem?_set_ne (by omega)]

theorem walk_bonds {Ws : List (Blk 𝕜)} {ds : List Nat} {cutoff : ℝ} {minB maxB : Nat} {R : Nat → Bool → List (Blk 𝕜) → ℝ → List (Blk 𝕜) → Prop}
    {l : List (Nat × Bool)} {s s' : List (Blk 𝕜)} {e e' : Option ℝ}
    (h : Walk (fun o f s x s' => CutStep Ws ds cutoff minB maxB o s x s' ∧ R o f s x s') l s e e' s') (o : Nat)
    (ho : (∃ f, (o, f) ∈ l) ∨ bondAt s o ≤ max minB maxB) : bondAt s' o ≤ max minB maxB := by
  induction h with
  | nil s e =>
    rcases ho with ⟨f, hf⟩ | ho
    · cases hf
    · exact ho
  | @cons o1 f1 l s s1 s' x e e' hq hw ih =>
    obtain ⟨v, w, _, ht, _⟩ := hq.1.trunc
    apply ih
    by_cases h1 : o = o1
    · subst h1
      exact .inr ht.limit.2
    · rcases ho with ⟨f, hf⟩ | ho
      · rcases List.mem_cons.1 hf with hf | hf
        · cases hf; exact absurd rfl h1
        · exact .inl ⟨f, hf⟩
      · right
        rw [bond_other ht o h1]
        exact ho

/-- A sweep visits every pair. -/
theorem mem_tour (len q o : Nat) (h2 : 2 ≤ len) (hq : q + 2 ≤ len) (ho : o + 1 < len) : ∃ f, (o, f) ∈ tour len q := by
  unfold tour
  split
  · exact ⟨false, by have : o = 0 := by omega
                     subst this; simp⟩
  · by_cases h1 : o < len - 2
    · exact ⟨true, by simp; omega⟩
    · by_cases h3 : q = len - 2
      · exact ⟨false, by simp only [List.mem_append, List.mem_map, List.mem_range]; exact .inl (.inl ⟨0, by omega, by simp; omega⟩)⟩
      · exact ⟨false, by simp only [List.mem_append, List.mem_map, List.mem_range]; exact .inr ⟨0, by omega, by simp; omega⟩⟩

/-! ### Energies -/

/-- The last update of a walk. -/
theorem walk_last {S : Type} {Q : Nat → Bool → List S → ℝ → List S → Prop}
    {l : List (Nat × Bool)} {s s' : List S} {e e' : Option ℝ} (h : Walk Q l s e e' s') (hl : l ≠ []) :
    ∃ o f s1 x, (o, f) ∈ l ∧ e' = some x ∧ Q o f s1 x s' := by
  induction h with
  | nil s e => exact absurd rfl hl
  | @cons o1 f1 l s s1 s' x e e' hq hw ih =>
    cases hw with
    | nil => exact ⟨o1, f1, s, x, by simp, rfl, hq⟩
    | cons hq' hw' =>
      obtain ⟨o, f, s2, y, a, b, c⟩ := ih (by simp)
      exact ⟨o, f, s2, y, List.mem_cons_of_mem _ a, b, c⟩

/-- The energy of the chain grows by at most `ε` in each update. -/
theorem walk_energy {S : Type} {Q : Nat → Bool → List S → ℝ → List S → Prop} {en : List S → ℝ} {ε : ℝ}
    (hQ : ∀ o f s x s', Q o f s x s' → x ≤ en s ∧ |x - en s'| ≤ ε)
    {l : List (Nat × Bool)} {s s' : List S} {e e' : Option ℝ} (h : Walk Q l s e e' s') :
    en s' ≤ en s + l.length * ε ∧ (∀ x, l ≠ [] → e' = some x → x ≤ en s + (l.length - 1) * ε ∧ |x - en s'| ≤ ε) := by
  induction h with
  | nil s e => simp
  | @cons o f l s s1 s' x e e' hq hw ih =>
    obtain ⟨a, b⟩ := hQ _ _ _ _ _ hq
    have b' := abs_le.1 b
    push_cast [List.length_cons]
    refine ⟨by linarith [ih.1], fun y _ hy => ?_⟩
    cases hw with
    | nil => cases hy; simp; exact ⟨a, b⟩
    | @cons o2 f2 l2 _ _ _ _ _ _ hq2 hw2 =>
      obtain ⟨c1, c2⟩ := ih.2 y (by simp) hy
      push_cast [List.length_cons] at c1 ⊢
      exact ⟨by linarith, c2⟩

theorem vec_bounds {Ws : List (Blk 𝕜)} {ds : List Nat} {v : List Nat → 𝕜} (hn : vecNormSq ds v = 1) :
    (∀ lo, BoundedBelow Ws ds lo → lo ≤ vecEnergy Ws ds v) ∧ ∀ hi, BoundedAbove Ws ds hi → vecEnergy Ws ds v ≤ hi := by
  unfold vecNormSq at hn
  constructor
  · intro lo h
    have := h v
    rw [hn, mul_one] at this
    exact this
  · intro hi h
    have := h v
    rw [hn, mul_one] at this
    exact this

theorem cut_move {Ws : List (Blk 𝕜)} {ds : List Nat} (h2 : 2 ≤ ds.length) {svd1 : Blk 𝕜 → Nat → Blk 𝕜 × Blk 𝕜 × Blk 𝕜} (hsvd1 : SvdOk svd1)
    {s : List (Blk 𝕜)} {c : Nat} (hg : Good Ws ds s c) :
    ∃ s' oc', moveOcDense star svd1 s 1 0 = .ok (s', oc') ∧ phys s' = ds ∧ normSq s' = 1 ∧ energy Ws s' = energy Ws s := by
  obtain ⟨m', e1, _, _, ss, _⟩ := C45_move_oc hsvd1 ⟨s, 1⟩ hg.fit.ket (by show 1 < s.length; rw [hg.length]; omega) 0
    (by show 0 < s.length; rw [hg.length]; omega)
  unfold moveOcDense
  rw [e1]
  obtain ⟨g1, g2⟩ := same_energy (Ws := Ws) hg.closed ss
  exact ⟨_, _, rfl, ss.phys.trans hg.phys, g1.trans hg.norm, g2⟩

/-- What both theorems about runs use. -/
theorem cut_run (Ws sites : List (Blk 𝕜)) {fac : Blk 𝕜 → Blk 𝕜 × Blk 𝕜 × Blk 𝕜} (hfac : DenseSvd fac)
    {svd1 : Blk 𝕜 → Nat → Blk 𝕜 × Blk 𝕜 × Blk 𝕜} (hsvd1 : SvdOk svd1) (cutoff : ℝ) (hcut : 0 ≤ cutoff) (minB maxB : Nat) (hmin : 1 ≤ minB ∨ cutoff < 1 ∧ 1 ≤ maxB)
    (hF : Fit sites Ws sites) (hc : Closed sites) (hcW : Closed Ws) (hH : HermitianOp Ws (phys sites))
    (h2 : 2 ≤ sites.length) (hsm : sites.length < 2 ^ 63) (oc : Nat) (ho : oc < sites.length) (hcan : Canonical sites oc)
    (hn : normSq sites = 1) (dflt : Res (Blk 𝕜)) (above : ℝ → ℝ → Bool) (e0 : ℝ) (maxIt : Nat) (hmax : 1 ≤ maxIt)
    (P : Nat → List (Blk 𝕜) → Prop) (hP : ∀ o s, P o s → CutAdmissible Ws o s)
    (hreg : RunAll (cutDmrg Ws fac cutoff minB maxB) P (tours sites.length (startPair sites.length oc) maxIt) sites) :
    ∃ e fin oc' log s, ∃ h : List (ℝ × List (Blk 𝕜)), dmrg true (cutDmrg Ws fac cutoff minB maxB) dflt above tooSmall (moveOcDense star svd1) e0
        maxIt sites.length sites oc = .ok (e, fin, oc', log) ∧
      h[0]? = some (e0, sites) ∧ 2 ≤ h.length ∧ h.length ≤ maxIt + 1 ∧ h[h.length - 1]? = some (e, s) ∧
      phys fin = phys sites ∧ normSq fin = 1 ∧ energy Ws fin = energy Ws s ∧
      (∀ (k : Nat) (x : ℝ × List (Blk 𝕜)), h[k]? = some x → ∃ c, Good Ws (phys sites) x.2 c) ∧
      (∀ (k : Nat) (x y : ℝ × List (Blk 𝕜)), h[k]? = some x → h[k + 1]? = some y → Walk (fun o f s x s' =>
          CutStep Ws (phys sites) cutoff minB maxB o s x s' ∧ (cutDmrg Ws fac cutoff minB maxB).fresh o f s = .ok (x, s') ∧ P o s)
        (tour sites.length (startPair sites.length oc)) x.2 none (some y.1) y.2) ∧
      (∀ n x s, Event.iteration n x s ∈ log ↔ h[n + 1]? = some (x, s)) ∧
      (fin = s ∨ moveOcDense star svd1 s 1 0 = .ok (fin, oc')) := by
  have hds : (phys sites).length = sites.length := by simp [Spec.phys]
  have hL := cut_steps hfac cutoff hcut minB maxB hmin hcW hH P hP
  rw [hds] at hL
  obtain ⟨e, fin, oc', log, s, h, a1, a2, a3, a4, a5, a6, a7, a8, a9⟩ := dmrg_steps hL h2 hsm oc ho ⟨hF, hc, rfl, hcan, hn⟩ true dflt above tooSmall
    (fun _ => by simp [tooSmall, hn]; norm_num) (moveOcDense star svd1)
    (fun _ s c hg => by
      obtain ⟨s', o', q, _⟩ := cut_move (by omega) hsvd1 hg
      exact ⟨s', o', q⟩) e0 maxIt hmax hreg
  obtain ⟨c', _, hg'⟩ := a7 _ _ a5
  simp only at hg'
  have hfin : (phys fin = phys sites ∧ normSq fin = 1 ∧ energy Ws fin = energy Ws s) ∧
      (fin = s ∨ moveOcDense star svd1 s 1 0 = .ok (fin, oc')) := by
    unfold Finish at a6
    split at a6
    · obtain ⟨s', o', q1, q2, q3, q4⟩ := cut_move (by omega) hsvd1 hg'
      rw [q1] at a6
      cases a6
      exact ⟨⟨q2, q3, q4⟩, .inr q1⟩
    · rw [a6.1]
      exact ⟨⟨hg'.phys, hg'.norm, rfl⟩, .inl rfl⟩
  exact ⟨e, fin, oc', log, s, h, a1, a2, a3, a4, a5, hfin.1.1, hfin.1.2.1, hfin.1.2.2, fun k x hx => by
    obtain ⟨c, _, hc⟩ := a7 k x hx
    exact ⟨c, hc⟩, a8, a9, hfin.2⟩

/-- **C87** (partial: every local update of the run must be one of those C86 speaks of).  A whole run of the dense DMRG with its truncated
SVD, for every hermitian Hamiltonian, every chain of two sites or more that is normalised and canonical around its center, every
cutoff, every limits of the bond with a minimum of at least one, every limit on the number of sweeps and every convergence
criterion: it returns; the state returned has norm one and the same physical dimensions; the energy returned lies within
every bounds of the spectrum; it is the one of the last iteration logged, whose state has the energy of the state
returned; and of every iteration logged, the state has norm one, no bond is larger than the maximum (or the minimum, if
that is larger), and if all of them are smaller than the maximum the energy logged is that of the state up to the
width of the spectrum times the cutoff. -/
theorem C87_run_partial (Ws sites : List (Blk 𝕜)) {fac : Blk 𝕜 → Blk 𝕜 × Blk 𝕜 × Blk 𝕜} (hfac : DenseSvd fac)
    {svd1 : Blk 𝕜 → Nat → Blk 𝕜 × Blk 𝕜 × Blk 𝕜} (hsvd1 : SvdOk svd1) (cutoff : ℝ) (hcut : 0 ≤ cutoff) (minB maxB : Nat) (hmin : 1 ≤ minB ∨ cutoff < 1 ∧ 1 ≤ maxB)
    (hF : Fit sites Ws sites) (hc : Closed sites) (hcW : Closed Ws) (hH : HermitianOp Ws (phys sites))
    (h2 : 2 ≤ sites.length) (hsm : sites.length < 2 ^ 63) (oc : Nat) (ho : oc < sites.length) (hcan : Canonical sites oc)
    (hn : normSq sites = 1) (dflt : Res (Blk 𝕜)) (above : ℝ → ℝ → Bool) (e0 : ℝ) (maxIt : Nat) (hmax : 1 ≤ maxIt)
    (hreg : RunAll (cutDmrg Ws fac cutoff minB maxB) (CutAdmissible Ws) (tours sites.length (startPair sites.length oc) maxIt) sites) :
    ∃ e fin oc' log, dmrg true (cutDmrg Ws fac cutoff minB maxB) dflt above tooSmall (moveOcDense star svd1) e0
        maxIt sites.length sites oc = .ok (e, fin, oc', log) ∧
      phys fin = phys sites ∧ normSq fin = 1 ∧
      (∃ n s, Event.iteration n e s ∈ log ∧ (∀ n' x s', Event.iteration n' x s' ∈ log → n' ≤ n) ∧ energy Ws fin = energy Ws s) ∧
      ∀ n x s, Event.iteration n x s ∈ log → normSq s = 1 ∧ phys s = phys sites ∧
        (∀ lo, BoundedBelow Ws (phys sites) lo → lo ≤ x) ∧ (∀ hi, BoundedAbove Ws (phys sites) hi → x ≤ hi) ∧
        (∀ o, o + 1 < s.length → bondAt s o ≤ max minB maxB) ∧
        ((∀ o, o + 1 < s.length → bondAt s o < maxB) → ∀ lo hi, BoundedBelow Ws (phys sites) lo → BoundedAbove Ws (phys sites) hi →
          |x - energy Ws s| ≤ (hi - lo) * cutoff) := by
  have hq : startPair sites.length oc + 2 ≤ sites.length := by unfold startPair; split <;> omega
  obtain ⟨e, fin, oc', log, s, h, a1, a2, a3, a4, a5, b1, b2, b3, a7, a8, a9, _⟩ := cut_run Ws sites hfac hsvd1 cutoff hcut minB maxB hmin hF hc hcW hH
    h2 hsm oc ho hcan hn dflt above e0 maxIt hmax _ (fun _ _ h => h) hreg
  refine ⟨e, fin, oc', log, a1, b1, b2, ⟨h.length - 2, s, ?_, ?_, b3⟩, ?_⟩
  · rw [a9, show h.length - 2 + 1 = h.length - 1 by omega]
    exact a5
  · intro n' x s' hm
    have := (List.getElem?_eq_some_iff.1 ((a9 _ _ _).1 hm)).1
    omega
  · intro n x s1 hm
    have hx := (a9 _ _ _).1 hm
    have hlt := (List.getElem?_eq_some_iff.1 hx).1
    obtain ⟨c, hg⟩ := a7 _ _ hx
    simp only at hg
    have hlen : s1.length = sites.length := by rw [hg.length]; simp [Spec.phys]
    obtain ⟨y, hy⟩ : ∃ y, h[n]? = some y := ⟨_, List.getElem?_eq_getElem (by omega)⟩
    have hw := a8 n y _ hy hx
    simp only at hw
    obtain ⟨o, f, s0, x', hmem, hxx, hQ, _⟩ := walk_last hw (tour_ne sites.length _ h2)
    cases hxx
    obtain ⟨v, w, t1, t2, t3⟩ := hQ.trunc
    obtain ⟨v1, v2⟩ := vec_bounds (Ws := Ws) t2.norm
    refine ⟨hg.norm, hg.phys, fun lo hlo => by rw [t1]; exact v1 lo hlo, fun hi hhi => by rw [t1]; exact v2 hi hhi, ?_, ?_⟩
    · intro o' ho'
      exact walk_bonds hw o' (.inl (mem_tour sites.length _ o' h2 hq (by omega)))
    · intro hroom lo hi hlo hhi
      have ho' := tour_inside sites.length _ h2 hq _ hmem
      have hwle := t2.small (hroom o (by rw [hlen]; exact ho'))
      refine (t3 lo hi hlo hhi).trans ?_
      have h1 : √w ≤ cutoff := by
        rw [← Real.sqrt_sq hcut]
        exact Real.sqrt_le_sqrt hwle
      have h2 := hQ.width lo hi hlo hhi
      exact mul_le_mul_of_nonneg_left h1 (by linarith)

/-- **C87** (partial, as above).  If moreover no update of the run reaches the maximum of the bond, energies go down up to the truncation:
with `ε` the width of the spectrum times the cutoff, the energy returned is that of the state returned up to `ε`; after `n + 1`
sweeps the energy of the state is at most the initial one plus `ε` for each update made; and the energy logged exceeds the one
before by at most `ε` for each update of a sweep.  Without cutoff these are the energies of the states and never increase. -/
theorem C87_energy_partial (Ws sites : List (Blk 𝕜)) {fac : Blk 𝕜 → Blk 𝕜 × Blk 𝕜 × Blk 𝕜} (hfac : DenseSvd fac)
    {svd1 : Blk 𝕜 → Nat → Blk 𝕜 × Blk 𝕜 × Blk 𝕜} (hsvd1 : SvdOk svd1) (cutoff : ℝ) (hcut : 0 ≤ cutoff) (minB maxB : Nat) (hmin : 1 ≤ minB ∨ cutoff < 1 ∧ 1 ≤ maxB)
    (hF : Fit sites Ws sites) (hc : Closed sites) (hcW : Closed Ws) (hH : HermitianOp Ws (phys sites))
    (h2 : 2 ≤ sites.length) (hsm : sites.length < 2 ^ 63) (oc : Nat) (ho : oc < sites.length) (hcan : Canonical sites oc)
    (hn : normSq sites = 1) (dflt : Res (Blk 𝕜)) (above : ℝ → ℝ → Bool) (e0 : ℝ) (maxIt : Nat) (hmax : 1 ≤ maxIt)
    (hreg : RunAll (cutDmrg Ws fac cutoff minB maxB) (fun o s => CutAdmissible Ws o s ∧ Room (cutDmrg Ws fac cutoff minB maxB) maxB o s)
      (tours sites.length (startPair sites.length oc) maxIt) sites)
    (lo hi : ℝ) (hlo : BoundedBelow Ws (phys sites) lo) (hhi : BoundedAbove Ws (phys sites) hi) :
    ∃ e fin oc' log, dmrg true (cutDmrg Ws fac cutoff minB maxB) dflt above tooSmall (moveOcDense star svd1) e0
        maxIt sites.length sites oc = .ok (e, fin, oc', log) ∧
      |e - energy Ws fin| ≤ (hi - lo) * cutoff ∧
      (∀ n x s, Event.iteration n x s ∈ log → |x - energy Ws s| ≤ (hi - lo) * cutoff ∧
        energy Ws s ≤ energy Ws sites + (n + 1) * (tour sites.length (startPair sites.length oc)).length * ((hi - lo) * cutoff)) ∧
      (∀ n x s x' s', Event.iteration n x s ∈ log → Event.iteration (n + 1) x' s' ∈ log →
        x' ≤ x + (tour sites.length (startPair sites.length oc)).length * ((hi - lo) * cutoff)) := by
  have hq : startPair sites.length oc + 2 ≤ sites.length := by unfold startPair; split <;> omega
  obtain ⟨e, fin, oc', log, s, h, a1, a2, a3, a4, a5, b1, b2, b3, a7, a8, a9, _⟩ := cut_run Ws sites hfac hsvd1 cutoff hcut minB maxB hmin hF hc hcW hH
    h2 hsm oc ho hcan hn dflt above e0 maxIt hmax _ (fun _ _ h => h.1) hreg
  have hQ : ∀ o f (s : List (Blk 𝕜)) x s', (CutStep Ws (phys sites) cutoff minB maxB o s x s' ∧ (cutDmrg Ws fac cutoff minB maxB).fresh o f s = .ok (x, s')
      ∧ CutAdmissible Ws o s ∧ Room (cutDmrg Ws fac cutoff minB maxB) maxB o s) → x ≤ energy Ws s ∧ |x - energy Ws s'| ≤ (hi - lo) * cutoff := by
    rintro o f s x s' ⟨q1, q2, q3, q4⟩
    refine ⟨q1.lower, ?_⟩
    obtain ⟨v, w, t1, t2, t3⟩ := q1.trunc
    refine (t3 lo hi hlo hhi).trans ?_
    have h1 : √w ≤ cutoff := by
      rw [← Real.sqrt_sq hcut]
      exact Real.sqrt_le_sqrt (t2.small (q4 f _ q2))
    have h2 := q1.width lo hi hlo hhi
    exact mul_le_mul_of_nonneg_left h1 (by linarith)
  have hnxt : ∀ (k : Nat) (x y : ℝ × List (Blk 𝕜)), h[k]? = some x → h[k + 1]? = some y → _ := fun k x y hx hy =>
    walk_energy (en := energy Ws) hQ (a8 k x y hx hy)
  have hne := tour_ne sites.length (startPair sites.length oc) h2
  have hen : ∀ (k : Nat) (x : ℝ × List (Blk 𝕜)), h[k]? = some x →
      energy Ws x.2 ≤ energy Ws sites + k * (tour sites.length (startPair sites.length oc)).length * ((hi - lo) * cutoff) := by
    intro k
    induction k with
    | zero => intro x hx; rw [a2] at hx; cases hx; simp
    | succ k ih =>
      intro x hx
      have hk := (List.getElem?_eq_some_iff.1 hx).1
      obtain ⟨y, hy⟩ : ∃ y, h[k]? = some y := ⟨_, List.getElem?_eq_getElem (by omega)⟩
      have h1 := ih y hy
      have h2 := (hnxt k y x hy hx).1
      push_cast
      linarith
  have habs : ∀ (k : Nat) (x : ℝ × List (Blk 𝕜)), 0 < k → h[k]? = some x → |x.1 - energy Ws x.2| ≤ (hi - lo) * cutoff := by
    intro k x hk0 hx
    have hk := (List.getElem?_eq_some_iff.1 hx).1
    obtain ⟨y, hy⟩ : ∃ y, h[k - 1]? = some y := ⟨_, List.getElem?_eq_getElem (by omega)⟩
    exact ((hnxt (k - 1) y x hy (by rw [show k - 1 + 1 = k by omega]; exact hx)).2 x.1 hne rfl).2
  refine ⟨e, fin, oc', log, a1, ?_, ?_, ?_⟩
  · rw [b3]
    exact habs _ _ (by omega) a5
  · intro n x s1 hm
    have hx := (a9 _ _ _).1 hm
    have h2 := hen _ _ hx
    push_cast at h2
    exact ⟨habs _ _ (by omega) hx, h2⟩
  · intro n x s1 x' s1' hm hm'
    have hx := (a9 _ _ _).1 hm
    have hx' := (a9 _ _ _).1 hm'
    have h1 := ((hnxt (n + 1) _ _ hx hx').2 x' hne rfl).1
    have h2 := abs_le.1 (habs _ _ (by omega) hx)
    simp only at h1 h2
    have h3 : ((tour sites.length (startPair sites.length oc)).length - 1 : ℝ) * ((hi - lo) * cutoff)
        = (tour sites.length (startPair sites.length oc)).length * ((hi - lo) * cutoff) - (hi - lo) * cutoff := by ring
    rw [h3] at h1
    linarith

end DM
end QuantiT
