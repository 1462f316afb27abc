import Verif.Model.BlockNetwork
import Verif.Spec.BlockNetwork
import Verif.Props.Tensordot
import Verif.Props.BTensorOps
import Verif.Lemmas.Network4
import Verif.Lemmas.Linalg
/-
A block tensor and the dense tensor it stands for: operations on both agree.
-/
namespace QuantiT.BN
open Spec BT MP Finset
variable {G R : Type}

/-- `x` is the dense tensor of `t`, as far as it is defined. -/
def Rep [AddCommMonoid G] [Zero R] (t : BT G R) (x : Blk R) : Prop := Sound t ∧ SameBlk (denseOf t) x

theorem Rep.dims [AddCommMonoid G] [Zero R] {t : BT G R} {x : Blk R} (h : Rep t x) : x.dims = t.shape.map dimSize := h.2.1.symm

theorem Rep.f [AddCommMonoid G] [Zero R] {t : BT G R} {x : Blk R} (h : Rep t x) {o : List Nat}
    (ho : InRange o (t.shape.map dimSize)) : x.f o = entry t.shape t.blocks o := (h.2.2 o ho).symm

theorem Rep.self [AddCommMonoid G] [Zero R] {t : BT G R} (h : Sound t) : Rep t (denseOf t) := ⟨h, rfl, fun _ _ => rfl⟩

theorem inRange_gather_inv {p e ds e' ds' : List Nat} (hp : p.Perm (List.range ds.length)) (hl : e.length = ds.length)
    (h1 : gather p e = some e') (h2 : gather p ds = some ds') (h : InRange e' ds') : InRange e ds := by
  unfold InRange at *
  rw [List.forall₂_iff_get] at *
  refine ⟨hl, fun i hi hi' => ?_⟩
  have him : i ∈ p := hp.mem_iff.mpr (List.mem_range.mpr hi')
  obtain ⟨j, hj, hji⟩ := List.getElem_of_mem him
  have g1 := gather_getElem? h1 (i := j) (j := i) (by rw [List.getElem?_eq_getElem hj, hji])
  have g2 := gather_getElem? h2 (i := j) (j := i) (by rw [List.getElem?_eq_getElem hj, hji])
  have l1 : j < e'.length := by rw [gather_length h1]; exact hj
  have l2 : j < ds'.length := by rw [gather_length h2]; exact hj
  have := h.2 j l1 l2
  rw [List.getElem?_eq_getElem l1, List.getElem?_eq_getElem hi] at g1
  rw [List.getElem?_eq_getElem l2, List.getElem?_eq_getElem hi'] at g2
  simp only [Option.some.injEq] at g1 g2
  simp only [List.get_eq_getElem] at this ⊢
  rw [← g1, ← g2]; exact this

theorem place_inRange {d ds x c xs cs : List Nat} (hd : d.Nodup) (hc : gather d ds = some cs)
    (hx : gather (others d ds.length) ds = some xs) (h1 : InRange x xs) (h2 : InRange c cs) : InRange (place d x c) ds := by
  have hp := outer_perm hd (gather_lt hc)
  have l1 : x.length = (others d ds.length).length := by rw [inRange_length h1, gather_length hx]
  have l2 : c.length = d.length := by rw [inRange_length h2, gather_length hc]
  have l3 : x.length + c.length = ds.length := by
    rw [l1, l2]
    have := hp.length_eq
    rwa [List.length_append, List.length_range] at this
  have hg := place_gather (x := x) (c := c) hd l2 (by rw [l3]; exact gather_lt hc) (by rw [l3]; exact l1)
  rw [l3] at hg
  exact inRange_gather_inv hp (by simp [place, l3]) (gather_append hg.2 hg.1) (gather_append hx hc) (List.rel_append h1 h2)

theorem gather_getD {p : List Nat} {ds ds' : List Nat} (h : gather p ds = some ds') : p.map (ds.getD · 0) = ds' := by
  have := gather_iff.mp h
  clear h
  induction this with
  | nil => rfl
  | cons h1 _ ih => rw [List.map_cons, ih]; simp [h1]

theorem indices_nodup : ∀ ds : List Nat, (indices ds).Nodup
  | [] => by simp [indices]
  | n :: ns => by
    rw [indices, List.nodup_flatMap]
    refine ⟨fun i _ => (indices_nodup ns).map fun _ _ h => by simpa using h, ?_⟩
    refine List.nodup_range.imp ?_
    intro i j hij s hs1 hs2
    obtain ⟨_, _, rfl⟩ := List.mem_map.mp hs1
    obtain ⟨_, _, h⟩ := List.mem_map.mp hs2
    exact hij (by simpa using (List.cons.inj h).1.symm)

theorem sum_indices [AddCommMonoid R] (ds : List Nat) (f : List Nat → R) :
    ((indices ds).map f).sum = ∑ o ∈ configs ds, f o := by
  rw [configs, List.sum_toFinset _ (indices_nodup ds)]

theorem rep_tdot [AddCommGroup G] [DecidableEq G] [Semiring R] {a b : BT G R} {x y : Blk R} (ha : Rep a x) (hb : Rep b y)
    {da db : List Nat} (hda : da.Nodup) (hdb : db.Nodup) {sa sb ca cb : Shape G}
    (hca : gather da a.shape = some ca) (hcb : gather db b.shape = some cb)
    (hsa : gather (others da a.shape.length) a.shape = some sa) (hsb : gather (others db b.shape.length) b.shape = some sb)
    (hc : Contractible ca cb) (na : a.shape ≠ []) (nb : b.shape ≠ []) :
    ∃ N r z, (∀ fuel, N ≤ fuel → tensordot fuel a b da db = some (.ok r)) ∧ tdot x y da db = .ok z ∧
      r.shape = sa ++ sb ∧ r.rule = a.rule + b.rule ∧ Rep r z := by
  obtain ⟨r, h1, h2, h3, h4, h5⟩ := C23_returns a b ha.1.1 hb.1.1 da db hda hdb sa sb ca cb hca hcb hsa hsb hc ha.1.2 hb.1.2
    (.inr ⟨na, .inr nb⟩) _ le_rfl
  have gx := gather_map dimSize hca
  have gy := gather_map dimSize hcb
  have gx' := gather_map dimSize hsa
  have gy' := gather_map dimSize hsb
  have hsz : ca.map dimSize = cb.map dimSize := by
    clear * - hc
    induction hc with
    | nil => rfl
    | cons h _ ih =>
      simp only [List.map_cons, ih, List.cons.injEq, and_true, dimSize]
      congr 1
      clear ih
      induction h with
      | nil => rfl
      | cons h _ ih => simp [h.1, ih]
  have lx : x.dims.length = a.shape.length := by rw [ha.dims, List.length_map]
  have ly : y.dims.length = b.shape.length := by rw [hb.dims, List.length_map]
  refine ⟨_, r, ⟨sa.map dimSize ++ sb.map dimSize, fun o => ∑ k ∈ configs (ca.map dimSize),
    x.f (place da (o.take (others da a.shape.length).length) k) * y.f (place db (o.drop (others da a.shape.length).length) k)⟩,
    fun fuel hf => tensordot_mono hf h1, ?_, h2, h3, ⟨h4, ?_⟩, ?_, ?_⟩
  · rw [tdot, if_neg, if_neg, if_neg, if_neg]
    · simp only [lx, ly]
      rw [ha.dims, hb.dims, gather_getD gx, gather_getD gx', gather_getD gy']
    · rw [ha.dims, hb.dims, gather_getD gx, gather_getD gy]; simpa using hsz
    · simp [hda, hdb]
    · rw [lx, ly]; simpa using ⟨gather_lt hca, gather_lt hcb⟩
    · rw [← gather_length hca, ← gather_length hcb, hc.length_eq]; simp
  · intro d hd
    rw [h2, List.mem_append] at hd
    have mem : ∀ {p : List Nat} {l l' : Shape G}, gather p l = some l' → ∀ d ∈ l', d ∈ l := by
      intro p l l' h d hd
      have := gather_iff.mp h
      clear h
      induction this with
      | nil => cases hd
      | cons h1 _ ih =>
        rcases List.mem_cons.mp hd with rfl | hd
        · exact List.mem_of_getElem? h1
        · exact ih hd
    rcases hd with hd | hd
    · exact ha.1.2 d (mem hsa d hd)
    · exact hb.1.2 d (mem hsb d hd)
  · simp [denseOf, h2]
  · intro o ho
    simp only [denseOf, h2, List.map_append] at ho
    obtain ⟨s, t, rfl, h6, h7⟩ := inRange_append_iff ho
    have hl : (others da a.shape.length).length = s.length := by rw [inRange_length h6, List.length_map, gather_length hsa]
    have := h5 _ _ h6 h7
    simp only [denseOf]
    rw [this, sum_indices, hl, List.take_left, List.drop_left]
    refine sum_congr rfl fun k hk => ?_
    have hk' := mem_configs.mp hk
    rw [ha.f (place_inRange hda gx (by simpa using gx') h6 hk'), hb.f (place_inRange hdb gy (by simpa using gy') h7 (hsz ▸ hk'))]

theorem Sound.conj [AddCommGroup G] [DecidableEq G] [Zero R] {c : R → R} {t : BT G R} (h : Sound t) : Sound (conj c t) := by
  refine ⟨?_, fun d hd => ?_⟩
  · refine (C27_inverse (mapBlocks c t)).1 ⟨?_, ?_⟩
    · exact FM.sorted_map_snd (g := fun b : Blk R => (⟨b.dims, fun o => c (b.f o)⟩ : Blk R)) h.1.sorted
    · intro k b hb
      obtain ⟨⟨k0, b0⟩, hm, he⟩ := List.mem_map.mp hb
      cases he
      exact h.1.block k0 b0 hm
  · obtain ⟨d', hd', rfl⟩ := List.mem_map.mp hd
    rw [List.length_map]; exact h.2 d' hd'

theorem conj_shape [AddCommGroup G] (c : R → R) (t : BT G R) : (BT.conj c t).shape = t.shape.map flipped := rfl

theorem rep_conj [AddCommGroup G] [DecidableEq G] [Zero R] {c : R → R} (h0 : c 0 = 0) {t : BT G R} {x : Blk R} (h : Rep t x) :
    Rep (BT.conj c t) (conjBlk c x) := by
  have hd : (BT.conj c t).shape.map dimSize = t.shape.map dimSize := by
    rw [conj_shape, List.map_map]
    refine List.map_congr_left fun d _ => ?_
    simp [dimSize, flipped, Function.comp_def]
  refine ⟨Sound.conj h.1, ?_, ?_⟩
  · simp only [denseOf, hd, conjBlk, h.dims]
  · intro o ho
    simp only [denseOf, hd] at ho
    show entry _ _ o = c (x.f o)
    rw [h.f ho, BT.conj, (C27_inverse (mapBlocks c t)).2.1, entry_mapBlocks c h0]

end QuantiT.BN
