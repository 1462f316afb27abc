import Verif.Model.Options
import Verif.Props.CutEx
/-
The options of the ground state search as limits (C124).
-/
namespace QuantiT
namespace DM
open Finset Spec MP
variable {𝕜 : Type} [RCLike 𝕜]

/-! ### Moving the center makes no bond larger -/

theorem bondAt_of {s : List (Blk 𝕜)} {o : Nat} {A : Blk 𝕜} (h : s[o]? = some A) : bondAt s o = A.dims.getD 2 0 := by
  unfold bondAt; rw [h]; rfl

theorem svdOf_right {fac : Blk 𝕜 → Blk 𝕜 × Blk 𝕜 × Blk 𝕜} (hfac : DenseSvd fac) {A : Blk 𝕜} {l s r : Nat} (hA : A.dims = [l, s, r]) :
    (svdOf fac A 2).1.dims = [l, s, min (l * s) r] ∧ (svdOf fac A 2).2.2.dims = [r, min (l * s) r] := by
  obtain ⟨u, d, v, h1, h2, h3, h4, _⟩ := LA.C85_split hfac A [l, s] [r] hA
  have e : svdOf fac A 2 = (u, d, v) := by unfold svdOf; rw [show (2 : Nat) = [l, s].length from rfl, h1]
  rw [e]
  have a := h2.dims
  have b := h3.dims
  simp at a b
  exact ⟨a, b⟩

theorem svdOf_left {fac : Blk 𝕜 → Blk 𝕜 × Blk 𝕜 × Blk 𝕜} (hfac : DenseSvd fac) {A : Blk 𝕜} {l s r : Nat} (hA : A.dims = [l, s, r]) :
    (svdOf fac A 1).1.dims = [l, min l (s * r)] ∧ (svdOf fac A 1).2.2.dims = [s, r, min l (s * r)] := by
  obtain ⟨u, d, v, h1, h2, h3, h4, _⟩ := LA.C85_split hfac A [l] [s, r] hA
  have e : svdOf fac A 1 = (u, d, v) := by unfold svdOf; rw [show (1 : Nat) = [l].length from rfl, h1]
  rw [e]
  have a := h2.dims
  have b := h3.dims
  simp at a b
  exact ⟨a, b⟩

theorem bond_set2 {sites : List (Blk 𝕜)} {i j : Nat} {A B X Y : Blk 𝕜} (hij : i ≠ j) (hA : sites[i]? = some A) (hB : sites[j]? = some B)
    (h1 : X.dims.getD 2 0 ≤ A.dims.getD 2 0) (h2 : Y.dims.getD 2 0 ≤ B.dims.getD 2 0) (o : Nat) :
    bondAt ((sites.set i X).set j Y) o ≤ bondAt sites o := by
  have li := (List.getElem?_eq_some_iff.1 hA).1
  have lj := (List.getElem?_eq_some_iff.1 hB).1
  by_cases hj : o = j
  · subst hj
    rw [bondAt_of hB, bondAt_of (A := Y) (by rw [List.getElem?_set_self (by simpa using lj)])]
    exact h2
  · by_cases hi : o = i
    · subst hi
      rw [bondAt_of hA, bondAt_of (A := X) (by rw [List.getElem?_set_ne (Ne.symm hj), List.getElem?_set_self li])]
      exact h1
    · unfold bondAt
      rw [List.getElem?_set_ne (Ne.symm hj), List.getElem?_set_ne (Ne.symm hi)]

theorem mulLast_dims {x d y : Blk 𝕜} (h : mulLast x d = .ok y) : y.dims = x.dims := by
  unfold mulLast at h
  split at h <;> cases h
  rfl

theorem dot1_dims {a b y : Blk 𝕜} {da db : Nat} (h : dot1 a b da db = .ok y) : y.dims = a.dims.eraseIdx da ++ b.dims.eraseIdx db := by
  unfold dot1 at h
  split at h
  · split at h <;> cases h
    rfl
  · cases h

theorem stepLeft_bonds {fac : Blk 𝕜 → Blk 𝕜 × Blk 𝕜 × Blk 𝕜} (hfac : DenseSvd fac) (m m' : MPS 𝕜)
    (hlk : Linked 3 (m.sites.map Blk.dims)) (h0 : 0 < m.oc) (hoc : m.oc < m.sites.length) (h : stepLeft star (svdOf fac) m = .ok m') (o : Nat) :
    bondAt m'.sites o ≤ bondAt m.sites o := by
  obtain ⟨p, hp⟩ : ∃ p, m.oc = p + 1 := ⟨m.oc - 1, by omega⟩
  have hA : m.sites[p]? = some (m.sites[p]'(by omega)) := List.getElem?_eq_getElem _
  have hB : m.sites[p + 1]? = some (m.sites[p + 1]'(by omega)) := List.getElem?_eq_getElem _
  generalize m.sites[p]'(by omega) = A at hA
  generalize m.sites[p + 1]'(by omega) = B at hB
  obtain ⟨l, s, n, dA⟩ := List.length_eq_three.1 (hlk.1 _ (List.mem_map.2 ⟨A, List.mem_of_getElem? hA, rfl⟩))
  obtain ⟨n', t, r, dB⟩ := List.length_eq_three.1 (hlk.1 _ (List.mem_map.2 ⟨B, List.mem_of_getElem? hB, rfl⟩))
  have hnn := hlk.2 p A.dims B.dims (by simp [hA]) (by simp [hB])
  rw [dA, dB] at hnn
  simp only [List.getElem?_cons_succ, List.getElem?_cons_zero, Option.some.injEq] at hnn
  subst hnn
  obtain ⟨du, dv⟩ := svdOf_left hfac dB
  unfold stepLeft at h
  rw [hp, Nat.add_sub_cancel] at h
  simp only [hA, hB, BT.orUb, bind, Except.bind] at h
  have e2 : BT.permBlk [2, 0, 1] (svdOf fac B 1).2.2 = .ok ⟨[min n (t * r), t, r], fun o => (svdOf fac B 1).2.2.f (BT.ungather [2, 0, 1] o)⟩ := by
    unfold BT.permBlk
    rw [dv]
    rfl
  rw [e2] at h
  cases e1 : mulLast (svdOf fac B 1).1 (svdOf fac B 1).2.1 with
  | error e => rw [e1] at h; cases h
  | ok ud =>
    rw [e1] at h
    simp only at h
    cases e3 : dot1 A ud 2 0 with
    | error e => rw [e3] at h; cases h
    | ok nx =>
      rw [e3] at h
      cases h
      have hd := dot1_dims e3
      rw [mulLast_dims e1, dA, du] at hd
      refine bond_set2 (by omega) hB hA ?_ ?_ o
      · rw [dB]; exact le_refl _
      · rw [dA, hd]
        simp

theorem stepRight_bonds {fac : Blk 𝕜 → Blk 𝕜 × Blk 𝕜 × Blk 𝕜} (hfac : DenseSvd fac) (m m' : MPS 𝕜)
    (hlk : Linked 3 (m.sites.map Blk.dims)) (hoc : m.oc + 1 < m.sites.length) (h : stepRight star (svdOf fac) m = .ok m') (o : Nat) :
    bondAt m'.sites o ≤ bondAt m.sites o := by
  have hA : m.sites[m.oc]? = some (m.sites[m.oc]'(by omega)) := List.getElem?_eq_getElem _
  have hB : m.sites[m.oc + 1]? = some (m.sites[m.oc + 1]'(by omega)) := List.getElem?_eq_getElem _
  generalize m.sites[m.oc]'(by omega) = A at hA
  generalize m.sites[m.oc + 1]'(by omega) = B at hB
  obtain ⟨l, s, n, dA⟩ := List.length_eq_three.1 (hlk.1 _ (List.mem_map.2 ⟨A, List.mem_of_getElem? hA, rfl⟩))
  obtain ⟨n', t, r, dB⟩ := List.length_eq_three.1 (hlk.1 _ (List.mem_map.2 ⟨B, List.mem_of_getElem? hB, rfl⟩))
  obtain ⟨du, dv⟩ := svdOf_right hfac dA
  unfold stepRight at h
  simp only [hA, hB, BT.orUb, bind, Except.bind] at h
  cases e1 : mulLast (svdOf fac A 2).2.2 (svdOf fac A 2).2.1 with
  | error e => rw [e1] at h; cases h
  | ok vd =>
    rw [e1] at h
    simp only at h
    have dvd := mulLast_dims e1
    rw [dv] at dvd
    have e2 : BT.permBlk [1, 0] vd = .ok ⟨[min (l * s) n, n], fun o => vd.f (BT.ungather [1, 0] o)⟩ := by
      unfold BT.permBlk
      rw [dvd]
      rfl
    rw [e2] at h
    simp only at h
    cases e3 : dot1 (conjBlk star ⟨[min (l * s) n, n], fun o => vd.f (BT.ungather [1, 0] o)⟩) B 1 0 with
    | error e => rw [e3] at h; cases h
    | ok nx =>
      rw [e3] at h
      cases h
      have hd := dot1_dims e3
      rw [dB] at hd
      refine bond_set2 (by omega) hA hB ?_ ?_ o
      · rw [dA, du]; simp
      · rw [dB, hd]
        simp [conjBlk]

theorem loopLeft_bonds {fac : Blk 𝕜 → Blk 𝕜 × Blk 𝕜 × Blk 𝕜} (hfac : DenseSvd fac) : ∀ (n : Nat) (m m' : MPS 𝕜),
    Linked 3 (m.sites.map Blk.dims) → n ≤ m.oc → m.oc < m.sites.length → loopLeft star (svdOf fac) n m = .ok m' → ∀ o,
    bondAt m'.sites o ≤ bondAt m.sites o
  | 0, m, m', _, _, _, h, o => by cases h; exact le_refl _
  | n + 1, m, m', hlk, hn, hoc, h, o => by
    obtain ⟨m1, e1, o1, l1, _, k1, _⟩ := stepLeft_ok (svdOk_dense hfac) m hlk (by omega) hoc
    unfold loopLeft at h
    rw [e1] at h
    exact (loopLeft_bonds hfac n m1 m' k1 (by omega) (by omega) h o).trans (stepLeft_bonds hfac m m1 hlk (by omega) hoc e1 o)

theorem loopRight_bonds {fac : Blk 𝕜 → Blk 𝕜 × Blk 𝕜 × Blk 𝕜} (hfac : DenseSvd fac) : ∀ (n : Nat) (m m' : MPS 𝕜),
    Linked 3 (m.sites.map Blk.dims) → m.oc + n < m.sites.length → loopRight star (svdOf fac) n m = .ok m' → ∀ o,
    bondAt m'.sites o ≤ bondAt m.sites o
  | 0, m, m', _, _, h, o => by cases h; exact le_refl _
  | n + 1, m, m', hlk, hoc, h, o => by
    obtain ⟨m1, e1, o1, l1, _, k1, _⟩ := stepRight_ok (svdOk_dense hfac) m hlk (by omega)
    unfold loopRight at h
    rw [e1] at h
    exact (loopRight_bonds hfac n m1 m' k1 (by omega) h o).trans (stepRight_bonds hfac m m1 hlk (by omega) e1 o)

/-- **C124.**  Moving the center of a dense chain, to any site, makes no bond larger. -/
theorem C124_move (m : MPS 𝕜) {fac : Blk 𝕜 → Blk 𝕜 × Blk 𝕜 × Blk 𝕜} (hfac : DenseSvd fac) (hlk : Linked 3 (m.sites.map Blk.dims))
    (hoc : m.oc < m.sites.length) (i : Nat) (hi : i < m.sites.length) :
    ∃ m', moveOc star (svdOf fac) m i = .ok m' ∧ ∀ o, bondAt m'.sites o ≤ bondAt m.sites o := by
  have hs := svdOk_dense hfac
  obtain ⟨m1, e1, o1, l1, _, k1, _⟩ := loopLeft_ok hs (m.oc - i) m hlk hoc (by omega)
  obtain ⟨m2, e2, _⟩ := loopRight_ok hs (i - m1.oc) m1 k1 (by omega)
  refine ⟨m2, ?_, fun o => (loopRight_bonds hfac _ m1 m2 k1 (by omega) e2 o).trans (loopLeft_bonds hfac _ m m1 hlk (by omega) hoc e1 o)⟩
  unfold moveOc
  rw [if_neg (by simp; omega), List.getElem?_eq_getElem hoc]
  simp only [BT.orUb, bind, Except.bind, Int.toNat_natCast, e1, e2]

/-- **C124.**  With `minimum_bond` not above `maximum_bond`, in every run of the dense search no bond of the state returned, nor of a state
reported to the logger, is larger than `maximum_bond`. -/
theorem C124_limit_partial (opt : Options) (hcut : 0 ≤ opt.cutoff) (hmin : 1 ≤ opt.minBond ∨ opt.cutoff < 1 ∧ 1 ≤ opt.maxBond) (hmax : opt.minBond ≤ opt.maxBond) (hit : 1 ≤ opt.maxIt)
    (Ws sites : List (Blk 𝕜)) {fac : Blk 𝕜 → Blk 𝕜 × Blk 𝕜 × Blk 𝕜} (hfac : DenseSvd fac)
    (hF : Fit sites Ws sites) (hc : Closed sites) (hcW : Closed Ws) (hH : HermitianOp Ws (phys sites))
    (h2 : 2 ≤ sites.length) (hsm : sites.length < 2 ^ 63) (oc : Nat) (ho : oc < sites.length) (hcan : Canonical sites oc)
    (hn : normSq sites = 1) (dflt : Res (Blk 𝕜))
    (hreg : RunAll (updateWith opt Ws fac) (CutAdmissible Ws) (tours sites.length (startPair sites.length oc) opt.maxIt) sites) :
    ∃ e fin oc' log, dmrgWith opt Ws fac dflt sites oc = .ok (e, fin, oc', log) ∧ fin.length = sites.length ∧
      (∀ o, o + 1 < fin.length → bondAt fin o ≤ opt.maxBond) ∧
      ∀ n x s, Event.iteration n x s ∈ log → ∀ o, o + 1 < s.length → bondAt s o ≤ opt.maxBond := by
  have hq : startPair sites.length oc + 2 ≤ sites.length := by unfold startPair; split <;> omega
  obtain ⟨e, fin, oc', log, s, h, a1, a2, a3, a4, a5, b1, b2, b3, a7, a8, a9, b4⟩ := cut_run Ws sites hfac (svdOk_dense hfac) opt.cutoff hcut
    opt.minBond opt.maxBond hmin hF hc hcW hH h2 hsm oc ho hcan hn dflt (movedAbs opt.criterion) energyBefore opt.maxIt hit _ (fun _ _ h => h) hreg
  have hb : ∀ n x s1, h[n + 1]? = some (x, s1) → s1.length = sites.length ∧ ∀ o, o + 1 < s1.length → bondAt s1 o ≤ opt.maxBond := by
    intro n x s1 hx
    have hlt := (List.getElem?_eq_some_iff.1 hx).1
    obtain ⟨c, hg⟩ := a7 _ _ hx
    simp only at hg
    have hlen : s1.length = sites.length := by rw [hg.length]; simp [Spec.phys]
    obtain ⟨y, hy⟩ : ∃ y, h[n]? = some y := ⟨_, List.getElem?_eq_getElem (by omega)⟩
    have hw := a8 n y _ hy hx
    simp only at hw
    refine ⟨hlen, fun o' ho' => ?_⟩
    have := walk_bonds hw o' (.inl (mem_tour sites.length _ o' h2 hq (by omega)))
    rwa [max_eq_right hmax] at this
  obtain ⟨hl, hs⟩ := hb (h.length - 2) e s (by rw [show h.length - 2 + 1 = h.length - 1 by omega]; exact a5)
  have hfl : fin.length = sites.length := by have := congrArg List.length b1; simpa [Spec.phys] using this
  refine ⟨e, fin, oc', log, a1, hfl, fun o ho' => ?_, fun n x s1 hm => (hb n x s1 ((a9 _ _ _).1 hm)).2⟩
  rcases b4 with rfl | b4
  · exact hs o ho'
  · obtain ⟨c, hg⟩ := a7 _ _ a5
    simp only at hg
    obtain ⟨m', d1, d2⟩ := C124_move ⟨s, 1⟩ hfac hg.fit.ket (by show 1 < s.length; omega) 0 (by show 0 < s.length; omega)
    unfold moveOcDense at b4
    rw [d1] at b4
    cases b4
    exact (d2 o).trans (hs o (by rw [hl, ← hfl]; exact ho'))

/-- **C124 fails** when `maximum_bond` is below `minimum_bond`: every update of a pair whose matrix has more rows and columns than
`maximum_bond` makes a bond larger than `maximum_bond`. -/
theorem C124_limit_fails (opt : Options) (hcut : 0 ≤ opt.cutoff) (hlow : opt.maxBond < opt.minBond)
    (Ws s : List (Blk 𝕜)) {fac : Blk 𝕜 → Blk 𝕜 × Blk 𝕜 × Blk 𝕜} (hfac : DenseSvd fac) (o : Nat) (fwd : Bool)
    (hF : Fit s Ws s) (hc : Closed s) (hcW : Closed Ws) (hH : HermitianOp Ws (phys s))
    (hcan : PairCanonical s o) (hn : normSq s = 1) (hreg : CutAdmissible Ws o s) (A B : Blk 𝕜) (hA : s[o]? = some A) (hB : s[o + 1]? = some B)
    (hrow : opt.maxBond < (A.dims.take 2).prod) (hcol : opt.maxBond < (B.dims.drop 1).prod) :
    ∃ E s', (updateWith opt Ws fac).fresh o fwd s = .ok (E, s') ∧ opt.maxBond < bondAt s' o := by
  have ho := (List.getElem?_eq_some_iff.1 hB).1
  obtain ⟨E, s', v, w, a1, _, _, _, _, _, _, a8, _⟩ := C86_update_partial Ws s hfac o fwd opt.cutoff hcut opt.minBond opt.maxBond (.inl (by omega))
    hF hc hcW hH ho hcan hn hreg.1 hreg.2
  refine ⟨E, s', a1, ?_⟩
  have := (a8.needed A B hA hB).2
  omega

/-- **C124 fails** with a `minimum_bond` of zero and a cutoff of one or more: the update throws. -/
theorem C124_zero_fails (opt : Options) (hcut : 1 ≤ opt.cutoff) (hmin : opt.minBond = 0) (Ws s : List (Blk 𝕜))
    {fac : Blk 𝕜 → Blk 𝕜 × Blk 𝕜 × Blk 𝕜} (hfac : DenseSvd fac) (o : Nat) (fwd : Bool)
    (hF : Fit s Ws s) (hc : Closed s) (hcW : Closed Ws) (hH : HermitianOp Ws (phys s))
    (hcan : PairCanonical s o) (hn : normSq s = 1) (hreg : CutAdmissible Ws o s) (ho : o + 1 < s.length) (hmax : opt.maxBond < 2 ^ 63) :
    (updateWith opt Ws fac).fresh o fwd s = Res.throw .outOfRange := by
  have hWl : Ws.length = s.length := (Fit.lengths hF).1
  have hlb := left_blkR Ws s (fun X => LA.svdCut fac X 2 opt.cutoff opt.minBond opt.maxBond fun x => x ^ 2) o (by omega) hWl
  have hrb := right_blkR Ws s (fun X => LA.svdCut fac X 2 opt.cutoff opt.minBond opt.maxBond fun x => x ^ 2) (o + 2) hWl (by omega)
  obtain ⟨A, B, W1, W2, Le, Re, H2, ψ, E, θ, n, i, m, j, n', T, gA, gB, gW1, gW2, h1, h2, h3, hψ, t1, hA, hB, t2, t3, _⟩ :=
    update_full Ws s o hF hc hcW hH ho hcan hn hreg.1
  have h63 : θ.dims.prod < 2 ^ 63 := by
    have := hreg.2 A B gA gB
    rw [hA, hB] at this
    rw [t2]; exact this
  have c1 := svdCut_none hfac θ n i j n' t2 t3 h63 opt.cutoff hcut opt.maxBond (by omega)
  rw [← hmin] at c1
  have hupd : blkUpdR Ws (fun X => LA.svdCut fac X 2 opt.cutoff opt.minBond opt.maxBond fun x => x ^ 2) fwd o
      ((updateWith opt Ws fac).left s o) ((updateWith opt Ws fac).right s (o + 2)) A B = Res.throw .outOfRange := by
    unfold blkUpdR updateWith cutDmrg
    rw [hlb, hrb, h1, h2, hψ, gW1, gW2]
    simp only [bind, Except.bind, BT.orUb, h3, t1, c1]
    rfl
  have e : (updateWith opt Ws fac).upd = blkUpdR Ws (fun X => LA.svdCut fac X 2 opt.cutoff opt.minBond opt.maxBond fun x => x ^ 2) := rfl
  rw [← e] at hupd
  unfold Dmrg.fresh
  rw [gA, gB]
  simp only
  rw [hupd]
  rfl

/-- **C124.**  The options made without limits, and all those made in Python without a limit or with one of at least 4, are of the first kind;
those made in Python with a `max_bond` below 4 and nothing else of the second. -/
theorem C124_defaults (c e : ℝ) (m : Nat) (cutoff criterion : Option ℝ) (it : Option Nat) :
    (Options.precision c e).minBond ≤ (Options.precision c e).maxBond ∧ Options.standard.minBond ≤ Options.standard.maxBond ∧
    (Options.python cutoff criterion none none it).minBond ≤ (Options.python cutoff criterion none none it).maxBond ∧
    ((Options.python cutoff criterion (some m) none it).minBond ≤ (Options.python cutoff criterion (some m) none it).maxBond ↔ 4 ≤ m) := by
  simp [Options.precision, Options.standard, Options.python]

/-- **C124.**  Every way to make options keeps what it is given, in the place of that name, and takes the same defaults for the rest; the
positional arguments are the keywords of Python in the order `cutoff, convergence_criterion` and `max_bond, min_bond, max_iterations`. -/
theorem C124_given (cutoff criterion : ℝ) (maxBond minBond maxIt : Nat) :
    Options.precision cutoff criterion = Options.python (some cutoff) (some criterion) none none none ∧
    Options.limits maxBond minBond maxIt = Options.python none none (some maxBond) (some minBond) (some maxIt) ∧
    Options.standard = Options.python none none none none none ∧
    ∀ (c e : Option ℝ) (mx mn it : Option Nat), (Options.python c e mx mn it).cutoff = c.getD (1 / 10 ^ 6) ∧
      (Options.python c e mx mn it).criterion = e.getD (1 / 10 ^ 5) ∧ (Options.python c e mx mn it).maxBond = mx.getD (2 ^ 64 - 1) ∧
      (Options.python c e mx mn it).minBond = mn.getD 4 ∧ (Options.python c e mx mn it).maxIt = it.getD 1000 :=
  ⟨rfl, rfl, rfl, fun _ _ _ _ _ => ⟨rfl, rfl, rfl, rfl, rfl⟩⟩

/-- The premises are met: a run of the example with the default options, and its update with `dmrg_options(max_bond=1)`. -/
example : ∃ fac : Blk ℝ → Blk ℝ × Blk ℝ × Blk ℝ,
    (∃ e fin oc log, dmrgWith Options.standard flipOp fac (.ok (onesLike [1, 1, 1])) flipStart 0 = .ok (e, fin, oc, log) ∧ fin.length = 2) ∧
    (∃ E s', (updateWith (Options.python none none (some 1) none none) flipOp fac).fresh 0 true flipStart = .ok (E, s') ∧ 1 < bondAt s' 0) ∧
    (updateWith (Options.python (some 1) none (some 1) (some 0) none) flipOp fac).fresh 0 true flipStart = Res.throw .outOfRange := by
  obtain ⟨fac, hfac⟩ := LA.denseSvd_exists ℝ
  have hg := flipStart_good
  have hcan : PairCanonical flipStart 0 := ⟨fun i A _ h => by omega, fun i A h hi => by
    have := (List.getElem?_eq_some_iff.1 h).1
    simp [flipStart] at this
    omega⟩
  refine ⟨fac, ?_, ?_, ?_⟩
  · obtain ⟨hr1, _⟩ := flip_cut_run hfac Options.standard.cutoff (by norm_num [Options.standard, Options.precision]) 4 (2 ^ 64 - 1) (.inl (by omega))
      (tours 2 0 1000) flipStart (tours_two_zero 1000) hg.fit hg.closed rfl hg.norm (.inl rfl)
    obtain ⟨e, fin, oc, log, c1, c2, _⟩ := C124_limit_partial Options.standard (by norm_num [Options.standard, Options.precision])
      (.inl (by norm_num [Options.standard, Options.precision])) (by norm_num [Options.standard, Options.precision])
      (by norm_num [Options.standard, Options.precision]) flipOp flipStart hfac hg.fit hg.closed ⟨rfl, rfl⟩ flip_herm (by simp [flipStart])
      (by simp [flipStart]) 0 (by simp [flipStart]) hg.canon hg.norm (.ok (onesLike [1, 1, 1])) hr1
    exact ⟨e, fin, oc, log, c1, c2⟩
  · obtain ⟨A, B, hAB⟩ : ∃ A B : Blk ℝ, flipStart = [A, B] := ⟨_, _, rfl⟩
    obtain ⟨E, s', q1, q2⟩ := C124_limit_fails (Options.python none none (some 1) none none) (by norm_num [Options.python]) (by norm_num [Options.python])
      flipOp flipStart hfac 0 true hg.fit hg.closed ⟨rfl, rfl⟩ flip_herm hcan hg.norm
      (flip_cut hfac 0 le_rfl 1 1 (.inl le_rfl) true hg.fit hg.closed rfl hg.norm (.inl rfl)).1 _ _ rfl rfl
      (by norm_num [Options.python, flipStart]) (by norm_num [Options.python, flipStart])
    exact ⟨E, s', q1, q2⟩
  · exact C124_zero_fails (Options.python (some 1) none (some 1) (some 0) none) (by simp [Options.python]) (by simp [Options.python])
      flipOp flipStart hfac 0 true hg.fit hg.closed ⟨rfl, rfl⟩ flip_herm hcan hg.norm
      (flip_cut hfac 0 le_rfl 1 1 (.inl le_rfl) true hg.fit hg.closed rfl hg.norm (.inl rfl)).1 (by simp [flipStart])
      (by simp [Options.python])

end DM
end QuantiT
