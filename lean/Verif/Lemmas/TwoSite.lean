import Verif.Lemmas.Network2
import Verif.Model.TwoSite
import Mathlib.Analysis.InnerProductSpace.PiL2
/-
The tensors of the two-site update as vectors: `twoSitesUpdateBlk` computes `twoSitesUpdate` for the linear map of
`hamil2site`.
-/
namespace QuantiT
namespace DM
open Finset Spec MP
variable {𝕜 : Type} [RCLike 𝕜]

/-- Entries of a tensor of sizes `ds` as a vector. -/
abbrev Vec (𝕜 : Type) (ds : List Nat) := EuclideanSpace 𝕜 (configs ds)

/-- A tensor as a vector. -/
def toV (ds : List Nat) (X : Blk 𝕜) : Vec 𝕜 ds := WithLp.toLp 2 fun o => X.f o.1

/-- A vector as a tensor. -/
noncomputable def ofV (ds : List Nat) (v : Vec 𝕜 ds) : Blk 𝕜 := ⟨ds, fun o => if h : o ∈ configs ds then v ⟨o, h⟩ else 0⟩

theorem inner_toV (ds : List Nat) (X Y : Blk 𝕜) : inner 𝕜 (toV ds X) (toV ds Y) = ∑ o ∈ configs ds, Y.f o * star (X.f o) := by
  rw [PiLp.inner_apply]
  refine Eq.trans ?_ (Finset.sum_coe_sort (configs ds) fun o => Y.f o * star (X.f o))
  refine Finset.sum_congr rfl fun o _ => ?_
  rw [RCLike.inner_apply]
  rfl

theorem toV_ofV (ds : List Nat) (v : Vec 𝕜 ds) : toV ds (ofV ds v) = v := by
  ext o
  simp [toV, ofV]

theorem norm_toV (ds : List Nat) (X : Blk 𝕜) : ‖toV ds X‖ ^ 2 = ∑ o ∈ configs ds, ‖X.f o‖ ^ 2 := by
  rw [EuclideanSpace.norm_sq_eq]
  exact Finset.sum_coe_sort (configs ds) fun o => ‖X.f o‖ ^ 2

omit [RCLike 𝕜] in
theorem toV_congr {ds : List Nat} {X Y : Blk 𝕜} : toV ds X = toV ds Y ↔ ∀ o ∈ configs ds, X.f o = Y.f o := by
  constructor
  · intro h o ho
    have := congrArg (fun v => v ⟨o, ho⟩) h
    exact this
  · intro h
    ext o
    exact h o.1 o.2

theorem dot4_ok {X Y : Blk 𝕜} {a b c d : Nat} (hX : X.dims = [a, b, c, d]) (hY : Y.dims = [a, b, c, d]) :
    dot4 X Y = .ok (RCLike.re (∑ o ∈ configs [a, b, c, d], X.f o * Y.f o)) := by
  obtain ⟨Xd, Xf⟩ := X
  obtain ⟨Yd, Yf⟩ := Y
  simp only at hX hY
  subst hX hY
  have : ∃ r, tdot (⟨[a, b, c, d], Xf⟩ : Blk 𝕜) ⟨[a, b, c, d], Yf⟩ [0, 1, 2, 3] [0, 1, 2, 3] = .ok r ∧
      r.f [] = ∑ o ∈ configs [a, b, c, d], Xf o * Yf o := by
    refine ⟨_, by simp [tdot, others, List.range, List.range.loop]; rfl, ?_⟩
    simp only [sum_configs_cons', sum_configs_nil]
    rfl
  obtain ⟨r, h1, h2⟩ := this
  unfold dot4
  rw [h1]
  simp only [bind, Except.bind, h2]

theorem dot4_inner {ds : List Nat} {X Y : Blk 𝕜} {a b c d : Nat} (hd : ds = [a, b, c, d]) (hX : X.dims = ds) (hY : Y.dims = ds) :
    dot4 X (conjBlk star Y) = .ok (RCLike.re (inner 𝕜 (toV ds Y) (toV ds X))) := by
  subst hd
  rw [dot4_ok hX (by exact hY), inner_toV]
  rfl

theorem dot4_inner' {ds : List Nat} {X Y : Blk 𝕜} {a b c d : Nat} (hd : ds = [a, b, c, d]) (hX : X.dims = ds) (hY : Y.dims = ds) :
    dot4 (conjBlk star Y) X = .ok (RCLike.re (inner 𝕜 (toV ds Y) (toV ds X))) := by
  subst hd
  rw [dot4_ok (by exact hY) hX, inner_toV]
  congr 2
  refine Finset.sum_congr rfl fun o _ => mul_comm _ _

theorem config4 {a b c d : Nat} {o : List Nat} (h : o ∈ configs [a, b, c, d]) :
    ∃ x y z w, o = [x, y, z, w] ∧ x < a ∧ y < b ∧ z < c ∧ w < d := by
  rw [mem_configs] at h
  cases h with
  | cons h1 h =>
  cases h with
  | cons h2 h =>
  cases h with
  | cons h3 h =>
  cases h with
  | cons h4 h =>
  cases h with
  | nil => exact ⟨_, _, _, _, rfl, h1, h2, h3, h4⟩

theorem mem_config4 {a b c d x y z w : Nat} (h1 : x < a) (h2 : y < b) (h3 : z < c) (h4 : w < d) :
    [x, y, z, w] ∈ configs [a, b, c, d] := by
  rw [mem_configs]
  exact .cons h1 (.cons h2 (.cons h3 (.cons h4 .nil)))

/-- The entries of `hamil2site`. -/
def heffFun (L Rt H : Blk 𝕜) (n m n' m' i j : Nat) (g : List Nat → 𝕜) (o : List Nat) : 𝕜 :=
  ∑ r ∈ range n', ∑ w' ∈ range m', ∑ v ∈ range m, ∑ s ∈ range i, ∑ t ∈ range j,
    ∑ l ∈ range n, L.f [l, v, o.getD 0 0] * g [l, s, t, r] * H.f [v, o.getD 1 0, o.getD 2 0, w', s, t] * Rt.f [r, w', o.getD 3 0]

theorem heffFun_add (L Rt H : Blk 𝕜) (n m n' m' i j : Nat) (g g' : List Nat → 𝕜) (o : List Nat) :
    heffFun L Rt H n m n' m' i j (fun x => g x + g' x) o
      = heffFun L Rt H n m n' m' i j g o + heffFun L Rt H n m n' m' i j g' o := by
  simp only [heffFun, mul_add, add_mul, sum_add_distrib]

theorem heffFun_smul (L Rt H : Blk 𝕜) (n m n' m' i j : Nat) (k : 𝕜) (g : List Nat → 𝕜) (o : List Nat) :
    heffFun L Rt H n m n' m' i j (fun x => k * g x) o = k * heffFun L Rt H n m n' m' i j g o := by
  simp only [heffFun, mul_sum]
  refine sum_congr rfl fun _ _ => sum_congr rfl fun _ _ => sum_congr rfl fun _ _ => sum_congr rfl fun _ _ => sum_congr rfl fun _ _ =>
    sum_congr rfl fun _ _ => ?_
  ring

theorem heffFun_congr (L Rt H : Blk 𝕜) (n m n' m' i j : Nat) (g g' : List Nat → 𝕜) (o : List Nat)
    (h : ∀ x ∈ configs [n, i, j, n'], g x = g' x) :
    heffFun L Rt H n m n' m' i j g o = heffFun L Rt H n m n' m' i j g' o := by
  refine sum_congr rfl fun r hr => sum_congr rfl fun _ _ => sum_congr rfl fun _ _ => sum_congr rfl fun s hs => sum_congr rfl fun t ht =>
    sum_congr rfl fun l hl => ?_
  rw [h _ (mem_config4 (mem_range.1 hl) (mem_range.1 hs) (mem_range.1 ht) (mem_range.1 hr))]

/-- A linear function on tensors of sizes `ds` as a linear map. -/
noncomputable def linV (ds : List Nat) (F : (List Nat → 𝕜) → List Nat → 𝕜) (ha : ∀ g g' o, F (fun x => g x + g' x) o = F g o + F g' o)
    (hs : ∀ (k : 𝕜) g o, F (fun x => k * g x) o = k * F g o)
    (hc : ∀ g g' o, (∀ x ∈ configs ds, g x = g' x) → F g o = F g' o) : Vec 𝕜 ds →ₗ[𝕜] Vec 𝕜 ds where
  toFun := fun v => WithLp.toLp 2 fun o => F (ofV ds v).f o.1
  map_add' := by
    intro v w
    ext o
    show F (ofV ds (v + w)).f o.1 = F (ofV ds v).f o.1 + F (ofV ds w).f o.1
    rw [← ha]
    refine hc _ _ _ fun x hx => ?_
    simp [ofV, hx]
  map_smul' := by
    intro k v
    ext o
    show F (ofV ds (k • v)).f o.1 = k * F (ofV ds v).f o.1
    rw [← hs]
    refine hc _ _ _ fun x hx => ?_
    simp [ofV, hx]

/-- Multiplication by the two-site Hamiltonian as a linear map. -/
theorem heff_exists {L Rt H : Blk 𝕜} {n m n' m' i j : Nat} (hL : L.dims = [n, m, n]) (hR : Rt.dims = [n', m', n'])
    (hH : H.dims = [m, i, j, m', i, j]) :
    ∃ T : Vec 𝕜 [n, i, j, n'] →ₗ[𝕜] Vec 𝕜 [n, i, j, n'], ∀ θ : Blk 𝕜, θ.dims = [n, i, j, n'] →
      ∃ θ', hamil2site θ H L Rt = .ok θ' ∧ θ'.dims = [n, i, j, n'] ∧ toV [n, i, j, n'] θ' = T (toV [n, i, j, n'] θ) := by
  refine ⟨linV [n, i, j, n'] (heffFun L Rt H n m n' m' i j) (heffFun_add L Rt H n m n' m' i j) (heffFun_smul L Rt H n m n' m' i j)
    (heffFun_congr L Rt H n m n' m' i j), fun θ hθ => ?_⟩
  obtain ⟨θ', h1, h2, h3⟩ := hamil2site_ok hL hR hH hθ
  refine ⟨θ', h1, h2, ?_⟩
  ext o
  obtain ⟨o, ho⟩ := o
  show θ'.f o = heffFun L Rt H n m n' m' i j (ofV _ (toV _ θ)).f o
  obtain ⟨x, y, z, w, rfl, _⟩ := config4 ho
  rw [h3]
  refine heffFun_congr L Rt H n m n' m' i j θ.f _ [x, y, z, w] fun q hq => ?_
  simp [ofV, toV, hq]

theorem twoSitesUpdateBlk_ok {L Rt H : Blk 𝕜} {n i j n' : Nat} {T : Vec 𝕜 [n, i, j, n'] →ₗ[𝕜] Vec 𝕜 [n, i, j, n']}
    (hT : ∀ θ : Blk 𝕜, θ.dims = [n, i, j, n'] →
      ∃ θ', hamil2site θ H L Rt = .ok θ' ∧ θ'.dims = [n, i, j, n'] ∧ toV [n, i, j, n'] θ' = T (toV [n, i, j, n'] θ))
    {s : Blk 𝕜} (hs : s.dims = [n, i, j, n']) {E : ℝ} {v : Vec 𝕜 [n, i, j, n']}
    (h : twoSitesUpdate T (toV [n, i, j, n'] s) = .ok (E, v)) :
    ∃ θ', twoSitesUpdateBlk s H L Rt = .ok (E, θ') ∧ θ'.dims = [n, i, j, n'] ∧ toV [n, i, j, n'] θ' = v := by
  obtain ⟨p, p1, p2, p3⟩ := hT s hs
  generalize hds : [n, i, j, n'] = ds at *
  -- the subtraction
  let a0 := RCLike.re (inner 𝕜 (toV ds s) (toV ds p))
  let q : Blk 𝕜 := ⟨ds, fun o => p.f o - s.f o * (a0 : 𝕜)⟩
  have hq : subMul p s a0 = .ok q := by
    unfold subMul
    rw [if_neg (by rw [p2, hs]; simp), p2]
  have hqV : toV ds q = T (toV ds s) - (a0 : 𝕜) • toV ds s := by
    rw [← p3]
    ext o
    show p.f o.1 - s.f o.1 * (a0 : 𝕜) = p.f o.1 - (a0 : 𝕜) * s.f o.1
    rw [mul_comm]
  let b := √(RCLike.re (inner 𝕜 (toV ds q) (toV ds q)))
  open Classical in
  let q' : Blk 𝕜 := if b ≥ 1e-15 then divBy q b else q
  have hq'd : q'.dims = ds := by
    simp only [q']
    split <;> rfl
  have hq'V : toV ds q' = open Classical in if b ≥ 1e-15 then ((b⁻¹ : ℝ) : 𝕜) • toV ds q else toV ds q := by
    simp only [q']
    split
    · ext o
      simp [toV, divBy, div_eq_inv_mul]
    · rfl
  obtain ⟨p', r1, r2, r3⟩ := hT q' hq'd
  have hl : lanczosBlk s H L Rt = .ok (q', a0, RCLike.re (inner 𝕜 (toV ds q') (toV ds p')), b) := by
    unfold lanczosBlk
    rw [p1]
    simp only [bind, Except.bind, dot4_inner hds.symm p2 hs]
    rw [show RCLike.re (inner 𝕜 (toV ds s) (toV ds p)) = a0 from rfl, hq]
    simp only [dot4_inner hds.symm (show q.dims = ds from rfl) (show q.dims = ds from rfl)]
    rw [show √(RCLike.re (inner 𝕜 (toV ds q) (toV ds q))) = b from rfl]
    rw [show (open Classical in if b ≥ 1e-15 then divBy q b else q) = q' from rfl, r1]
    simp only [dot4_inner' hds.symm r2 hq'd]
  have hl2 : lanczos T (toV ds s) = (toV ds q', a0, RCLike.re (inner 𝕜 (toV ds q') (toV ds p')), b) := by
    unfold lanczos
    have ha : RCLike.re (inner 𝕜 (toV ds s) (T (toV ds s))) = a0 := by rw [← p3]
    simp only [ha, ← hqV]
    rw [show √(RCLike.re (inner 𝕜 (toV ds q) (toV ds q))) = b from rfl, ← hq'V, ← r3]
  unfold twoSitesUpdate at h
  rw [hl2] at h
  obtain ⟨r, hr, h⟩ : ∃ r, eig2x2 a0 (RCLike.re (inner 𝕜 (toV ds q') (toV ds p'))) b = .ok r ∧
      Except.ok (r.1, (r.2.1 : 𝕜) • toV ds s + (r.2.2 : 𝕜) • toV ds q') = (Except.ok (E, v) : Res _) := by
    cases hr : eig2x2 a0 (RCLike.re (inner 𝕜 (toV ds q') (toV ds p'))) b with
    | error f => simp [bind, Except.bind, hr] at h
    | ok r => exact ⟨r, rfl, by simpa [bind, Except.bind, hr] using h⟩
  obtain ⟨rfl, rfl⟩ := Prod.mk.inj (Except.ok.inj h)
  refine ⟨⟨ds, fun o => (r.2.1 : 𝕜) * s.f o + (r.2.2 : 𝕜) * q'.f o⟩, ?_, rfl, ?_⟩
  · unfold twoSitesUpdateBlk
    rw [hl]
    simp only [bind, Except.bind, hr]
    rw [if_neg (by rw [hs, hq'd]; simp), hs]
  · ext o
    rfl

end DM
end QuantiT
