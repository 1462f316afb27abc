import Verif.Model.DmrgDense
import Verif.Props.Dmrg
import Verif.Props.MoveOc
import Mathlib.Algebra.CharZero.Defs
import Mathlib.Data.Nat.Cast.Basic
/-
The orthogonality center after a dense DMRG, with the tensors (C51).
-/
namespace QuantiT
namespace DM
open Spec Finset MP
variable {R E En : Type}

/-- A truncated SVD of a two-site tensor gave `u`, `d`, `v`: the columns of `u` are orthonormal and so are those of
`v`.  Nothing is said about the product, which truncation changes. -/
structure SvdTwo [Semiring R] [StarRing R] (u d v : Blk R) (l s t r k : Nat) : Prop where
  udims : u.dims = [l, s, k]
  ddims : d.dims = [k]
  vdims : v.dims = [t, r, k]
  uorth : ∀ a b, a < k → b < k →
    ∑ i ∈ range l, ∑ c ∈ range s, star (u.f [i, c, a]) * u.f [i, c, b] = if a = b then 1 else 0
  vorth : ∀ a b, a < k → b < k →
    ∑ c ∈ range t, ∑ j ∈ range r, star (v.f [c, j, a]) * v.f [c, j, b] = if a = b then 1 else 0

/-- Whether two neighbours fit depends on their sizes only. -/
theorem linked_replace [Semiring R] {sites : List (Blk R)} {p : Nat} {A B A' B' : Blk R} {l s m t r k : Nat}
    (hA : sites[p]? = some A) (hB : sites[p + 1]? = some B) (hlk : Linked 3 (sites.map Blk.dims))
    (dA : A.dims = [l, s, m]) (dB : B.dims = [m, t, r]) (dA' : A'.dims = [l, s, k]) (dB' : B'.dims = [k, t, r]) :
    Linked 3 (((sites.set p A').set (p + 1) B').map Blk.dims) := by
  let z : Blk R → Blk R := fun X => ⟨X.dims, fun _ => 0⟩
  have hz : ∀ l : List (Blk R), (l.map z).map Blk.dims = l.map Blk.dims := by
    intro l; rw [List.map_map]; rfl
  have h := (pair_replace (sites := sites.map z) (p := p) (A := z A) (B := z B) (A' := z A') (B' := z B')
    (by rw [List.getElem?_map, hA]; rfl) (by rw [List.getElem?_map, hB]; rfl) (by rw [hz]; exact hlk)
    (l := l) (s := s) (m := m) (t := t) (r := r) (k := k) dA dB dA' dB'
    (by intro i c c' j _ _ _ _; simp [z])).2
  rw [← List.map_set, ← List.map_set, hz] at h
  exact h

theorem fresh_dense [CommSemiring R] [StarRing R] (solve : Nat → E → E → Blk R → En × Blk R)
    (svd : Blk R → Blk R × Blk R × Blk R) (nrm : Blk R → Blk R) (lenv renv : Nat → Blk R → E → E) (edgeL edgeR : E)
    (hsolve : ∀ o le re X, (solve o le re X).2.dims = X.dims)
    (hsvd : ∀ X l s t r, X.dims = [l, s, t, r] → ∃ k, SvdTwo (svd X).1 (svd X).2.1 (svd X).2.2 l s t r k)
    (hnrm : ∀ d, (nrm d).dims = d.dims) (fwd : Bool) (o : Nat) (s : List (Blk R)) (hlk : Linked 3 (s.map Blk.dims))
    (r : En × List (Blk R))
    (hf : (denseDmrg star solve svd nrm lenv renv edgeL edgeR).fresh o fwd s = .ok r) :
    Linked 3 (r.2.map Blk.dims) ∧ (fwd = true → ∀ A, r.2[o]? = some A → LeftOrth A) ∧
      (fwd = false → ∀ A, r.2[o + 1]? = some A → RightOrth A) := by
  unfold Dmrg.fresh at hf
  split at hf
  · rename_i A B hA hB
    have hlt := (List.getElem?_eq_some_iff.1 hB).1
    have rA : A.dims.length = 3 := hlk.1 _ (List.mem_map.2 ⟨A, List.mem_of_getElem? hA, rfl⟩)
    have rB : B.dims.length = 3 := hlk.1 _ (List.mem_map.2 ⟨B, List.mem_of_getElem? hB, rfl⟩)
    obtain ⟨l, sg, n, dA⟩ := List.length_eq_three.1 rA
    obtain ⟨n', t, q, dB⟩ := List.length_eq_three.1 rB
    have hnn := hlk.2 o A.dims B.dims (by simp [hA]) (by simp [hB])
    rw [dA, dB] at hnn
    simp only [List.getElem?_cons_succ, List.getElem?_cons_zero, Option.some.injEq] at hnn
    subst hnn
    generalize hLe : (denseDmrg star solve svd nrm lenv renv edgeL edgeR).left s o = le at hf
    generalize hRe : (denseDmrg star solve svd nrm lenv renv edgeL edgeR).right s (o + 2) = re at hf
    simp only [denseDmrg] at hf
    obtain ⟨loc, hloc, dloc⟩ : ∃ loc, dot1 A B 2 0 = .ok loc ∧ loc.dims = [l, sg, t, q] := by
      unfold dot1
      rw [dA, dB]
      simp only [List.getElem?_cons_succ, List.getElem?_cons_zero, if_true]
      exact ⟨_, rfl, rfl⟩
    generalize hep : solve o le re loc = ep at hf
    have dep : ep.2.dims = [l, sg, t, q] := by rw [← hep, hsolve, dloc]
    obtain ⟨k, hk⟩ := hsvd ep.2 l sg t q dep
    generalize hu : (svd ep.2).1 = u at hk
    generalize hd : (svd ep.2).2.1 = d at hk
    generalize hv : (svd ep.2).2.2 = v at hk
    have hs : svd ep.2 = (u, d, v) := by rw [← hu, ← hd, ← hv]
    obtain ⟨du, dd, dv, huo, hvo⟩ := hk
    unfold denseUpd at hf
    rw [hloc] at hf
    simp only [bind, Except.bind, hep, hs] at hf
    cases fwd with
    | true =>
      simp only [if_true] at hf
      have e1 : mulLast v (nrm d) = .ok ⟨[t, q, k], fun x => v.f x * (nrm d).f [x.getLastD 0]⟩ := by
        unfold mulLast
        rw [if_pos (by simp [hnrm, dd, dv]), dv]
      rw [e1] at hf
      obtain ⟨nx, hnx, dnx⟩ : ∃ nx, BT.permBlk [2, 0, 1] (conjBlk star (⟨[t, q, k], fun x => v.f x * (nrm d).f [x.getLastD 0]⟩ : Blk R))
          = .ok nx ∧ nx.dims = [k, t, q] := ⟨_, rfl, rfl⟩
      simp only [hnx] at hf
      cases hf
      refine ⟨linked_replace hA hB hlk dA dB du dnx, fun _ X hX => ?_, fun h => by cases h⟩
      simp only at hX
      rw [List.getElem?_set_ne (by omega), List.getElem?_set_self (by omega)] at hX
      cases hX
      obtain ⟨g0, g1, g2⟩ := getD_dims du
      intro a b ha hb
      rw [g2] at ha hb
      rw [g0, g1]
      exact huo a b ha hb
    | false =>
      simp only [Bool.false_eq_true, if_false] at hf
      have e1 : mulLast u (nrm d) = .ok ⟨[l, sg, k], fun x => u.f x * (nrm d).f [x.getLastD 0]⟩ := by
        unfold mulLast
        rw [if_pos (by simp [hnrm, dd, du]), du]
      rw [e1] at hf
      let cu : Blk R := ⟨[k, t, q], fun x => star (v.f (BT.ungather [2, 0, 1] x))⟩
      have e2 : BT.permBlk [2, 0, 1] (conjBlk star v) = .ok cu := by
        unfold BT.permBlk conjBlk
        rw [dv]
        rfl
      simp only [e2] at hf
      cases hf
      refine ⟨linked_replace hA hB hlk dA dB rfl rfl, fun h => (by cases h), fun _ X hX => ?_⟩
      simp only at hX
      rw [List.getElem?_set_self (by simp; omega)] at hX
      cases hX
      intro a b ha hb
      rw [← hvo a b ha hb]
      apply Finset.sum_congr rfl; intro c _
      apply Finset.sum_congr rfl; intro j _
      have e : ∀ y, cu.f [y, c, j] = star (v.f [c, j, y]) := fun _ => rfl
      rw [e, e, star_star]
  · cases hf

theorem moveOcDense_ok [CommSemiring R] [StarRing R] {svd1 : Blk R → Nat → Blk R × Blk R × Blk R} (h1 : SvdOk svd1) :
    MoveOcOk (fun s : List (Blk R) => Linked 3 (s.map Blk.dims)) LeftOrth RightOrth (moveOcDense star svd1) := by
  intro s i j s' o hlk hi hj h
  obtain ⟨m', e1, o1, l1, _, _, q1, q2, q3, _⟩ := C45_move_oc h1 ⟨s, i⟩ hlk hi j hj
  unfold moveOcDense at h
  rw [e1] at h
  cases h
  exact ⟨o1, q1, q2, q3⟩

/-- **C51** with the tensors of the dense flavour (partial: at least one sweep, start at either end of the chain).  For
every chain of linked rank-3 tensors, every eigensolver that keeps sizes and every SVD that returns orthonormal
factors, after `dmrg` the tensors left of `orthogonality_center` are left-orthonormal and those right of it are
right-orthonormal. -/
theorem C51_dense_partial [CommSemiring R] [StarRing R] (solve : Nat → E → E → Blk R → En × Blk R)
    (svd : Blk R → Blk R × Blk R × Blk R) (svd1 : Blk R → Nat → Blk R × Blk R × Blk R) (nrm : Blk R → Blk R)
    (lenv renv : Nat → Blk R → E → E) (edgeL edgeR dflt : E)
    (hsolve : ∀ o le re X, (solve o le re X).2.dims = X.dims)
    (hsvd : ∀ X l s t r, X.dims = [l, s, t, r] → ∃ k, SvdTwo (svd X).1 (svd X).2.1 (svd X).2.2 l s t r k)
    (hsvd1 : SvdOk svd1) (hnrm : ∀ d, (nrm d).dims = d.dims)
    (above : En → En → Bool) (zeroNorm : List (Blk R) → Bool) (e0 : En) (maxIt : Nat) (sites : List (Blk R)) (oc : Nat)
    (hlk : Linked 3 (sites.map Blk.dims)) (h2 : 2 ≤ sites.length) (hsm : sites.length < 2 ^ 63) (hmax : 1 ≤ maxIt)
    (ho : oc = 0 ∨ oc + 2 = sites.length ∨ oc + 1 = sites.length)
    (e : En) (fin : List (Blk R)) (oc' : Nat) (log : List (Event (Blk R) En))
    (hr : dmrg true (denseDmrg star solve svd nrm lenv renv edgeL edgeR) dflt above zeroNorm (moveOcDense star svd1) e0
      maxIt sites.length sites oc = .ok (e, fin, oc', log)) : Canonical fin oc' :=
  C51_partial true _ dflt above zeroNorm (moveOcDense star svd1) e0 maxIt sites oc h2 (by omega) hsm e fin oc' log hr
    (fun s => Linked 3 (s.map Blk.dims)) LeftOrth RightOrth hlk
    (fun fwd o s r hs hf => (fresh_dense solve svd nrm lenv renv edgeL edgeR hsolve hsvd hnrm fwd o s hs r hf).1)
    (fun o s r A hs hf => (fresh_dense solve svd nrm lenv renv edgeL edgeR hsolve hsvd hnrm true o s hs r hf).2.1 rfl A)
    (fun o s r A hs hf => (fresh_dense solve svd nrm lenv renv edgeL edgeR hsolve hsvd hnrm false o s hs r hf).2.2 rfl A)
    (moveOcDense_ok hsvd1) hmax (by
      rcases ho with h | h | h
      · exact Or.inr ⟨rfl, h⟩
      · exact Or.inl (by omega)
      · exact Or.inl (by omega))

/-- A normalised tensor whose left bond has more than one state is not right-orthonormal: the hypothesis of `C51_fails` is
met by the center of any entangled state. -/
theorem not_rightOrth [CommSemiring R] [StarRing R] [CharZero R] (A : Blk R) (hb : 2 ≤ A.dims.getD 0 0)
    (hn : ∑ a ∈ range (A.dims.getD 0 0), ∑ s ∈ range (A.dims.getD 1 0), ∑ j ∈ range (A.dims.getD 2 0),
      A.f [a, s, j] * star (A.f [a, s, j]) = 1) : ¬ RightOrth A := by
  intro h
  rw [Finset.sum_congr rfl (fun a ha => h a a (Finset.mem_range.1 ha) (Finset.mem_range.1 ha))] at hn
  simp at hn
  have : (A.dims.getD 0 0) = 1 := by exact_mod_cast hn
  omega

/-- A factorisation over `ℤ` with orthonormal factors for two-site tensors. -/
def idSvd2 (X : Blk ℤ) : Blk ℤ × Blk ℤ × Blk ℤ :=
  let l := X.dims.getD 0 0; let s := X.dims.getD 1 0; let t := X.dims.getD 2 0; let r := X.dims.getD 3 0
  let k := min (l * s) (t * r)
  (⟨[l, s, k], fun o => if o.getD 0 0 * s + o.getD 1 0 = o.getD 2 0 then 1 else 0⟩, ⟨[k], fun _ => 1⟩,
    ⟨[t, r, k], fun o => if o.getD 0 0 * r + o.getD 1 0 = o.getD 2 0 then 1 else 0⟩)

theorem idSvd2_ok (X : Blk ℤ) (l s t r : Nat) (h : X.dims = [l, s, t, r]) :
    ∃ k, SvdTwo (idSvd2 X).1 (idSvd2 X).2.1 (idSvd2 X).2.2 l s t r k := by
  refine ⟨min (l * s) (t * r), by simp [idSvd2, h], by simp [idSvd2, h], by simp [idSvd2, h], ?_, ?_⟩
  · intro a b ha _
    simpa [idSvd2, h] using delta_orth l s a b (by omega)
  · intro a b ha _
    simpa [idSvd2, h] using delta_orth t r a b (by omega)

/-- The theorem applies to a run on three sites with bonds of dimension two. -/
example : ∃ (e : Unit) (fin : List (Blk ℤ)) (oc : Nat) (log : List (Event (Blk ℤ) Unit)),
    dmrg true (denseDmrg star (fun _ _ _ X => ((), X)) idSvd2 id (fun _ _ (e : Unit) => e) (fun _ _ e => e) () ()) ()
      (fun _ _ => true) (fun _ => false) (moveOcDense star idSvd) () 1 3
      [⟨[1, 2, 2], fun o => o.sum⟩, ⟨[2, 2, 2], fun o => 1 + o.sum⟩, ⟨[2, 2, 1], fun _ => 3⟩] 0
      = .ok (e, fin, oc, log) ∧ oc = 0 ∧ fin.length = 3 ∧ Canonical fin oc := by
  refine ⟨_, _, _, _, rfl, rfl, rfl, ?_⟩
  exact C51_dense_partial (fun _ _ _ X => ((), X)) idSvd2 idSvd id (fun _ _ (e : Unit) => e) (fun _ _ e => e) () () ()
    (fun _ _ _ _ => rfl) idSvd2_ok idSvd_ok (fun _ => rfl) (fun _ _ => true) (fun _ => false) () 1
    [⟨[1, 2, 2], fun o => o.sum⟩, ⟨[2, 2, 2], fun o => 1 + o.sum⟩, ⟨[2, 2, 1], fun _ => 3⟩] 0
    ⟨by simp, fun i s s' h h' => by
      match i with
      | 0 => simp at h h'; subst h h'; rfl
      | 1 => simp at h h'; subst h h'; rfl
      | i + 2 => simp at h'⟩ (by decide) (by decide) (by decide) (by decide) _ _ _ _ rfl

/-- A normalised tensor with a left bond of dimension two. -/
example : ¬ RightOrth (⟨[2, 1, 2], fun o => if o = [0, 0, 0] then 1 else 0⟩ : Blk ℤ) :=
  not_rightOrth _ (by decide) (by decide)

end DM
end QuantiT
