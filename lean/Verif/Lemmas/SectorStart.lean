import Verif.Model.SectorStart
import Verif.Props.RandomMps
import Verif.Props.Broadcast
import Verif.Lemmas.BlockSector2
import Verif.Lemmas.Sector
import Verif.Props.BlockSector
/-
The starting state of the block DMRG.
-/
namespace QuantiT.BN
open Spec BT MP Finset
variable {G 𝕜 : Type} [RCLike 𝕜]

theorem conj_conserving' [AddCommGroup G] [DecidableEq G] {t : BT G 𝕜} (h : Conserving t.shape t.rule t.blocks) :
    Conserving (conj star t).shape (conj star t).rule (conj star t).blocks :=
  (C27_inverse (mapBlocks star t)).1 (conserving_mapBlocks star h)

/-- Dividing a tensor by its norm keeps its shape, its rule and its blocks. -/
theorem unitSite_ok [AddCommGroup G] [DecidableEq G] {t : BT G 𝕜} (hc : Conserving t.shape t.rule t.blocks) :
    ∃ t', unitSite t = .ok t' ∧ t'.shape = t.shape ∧ t'.rule = t.rule ∧ Conserving t'.shape t'.rule t'.blocks := by
  obtain ⟨n, n1, n2, -⟩ := C36_equal t (conj star t) hc (conj_conserving' hc) (by
    simp [conj, inverseCvals, mapBlocks, Function.comp_def])
  have hn : n.rule = 0 := by rw [n2]; simp [conj, inverseCvals, mapBlocks]
  obtain ⟨g, g1⟩ : ∃ g : List Nat → 𝕜, BT.sum n = sc g := by
    refine ⟨fun _ => (n.blocks.map fun kb => ((allIdx kb.2.dims).map kb.2.f).sum).sum, ?_⟩
    unfold BT.sum sc
    rw [hn]
  refine ⟨⟨t.shape, t.rule, numBlocks (fun x => x / ((√(RCLike.re (g [])) : ℝ) : 𝕜)) t.blocks⟩, ?_, rfl, rfl,
    numBlocks_conserving (fun x => x / ((√(RCLike.re (g [])) : ℝ) : 𝕜)) hc⟩
  unfold unitSite
  rw [n1]
  simp only [bind, Except.bind]
  rw [g1, sc_map]
  exact inPlace_sc (· / ·) hc.sorted (fun o => ((√(RCLike.re (g o)) : ℝ) : 𝕜))

theorem unitSites_ok [AddCommGroup G] [DecidableEq G] : ∀ (ts : List (BT G 𝕜)), (∀ t ∈ ts, Conserving t.shape t.rule t.blocks) →
    ∃ ts', ts.mapM unitSite = .ok ts' ∧ List.Forall₂ (fun t t' => t'.shape = t.shape ∧ t'.rule = t.rule ∧ Conserving t'.shape t'.rule t'.blocks) ts ts'
  | [], _ => ⟨[], rfl, .nil⟩
  | t :: ts, h => by
    obtain ⟨t', a1, a2⟩ := unitSite_ok (h t (by simp))
    obtain ⟨ts', b1, b2⟩ := unitSites_ok ts fun x hx => h x (by simp [hx])
    exact ⟨t' :: ts', by rw [List.mapM_cons, a1, b1]; rfl, .cons a2 b2⟩

/-- The random block MPS with normalised tensors, if it is made, is a chain with the requested physical dimensions, total charge and bond
dimension. -/
theorem randomUnit_chain [AddCommGroup G] [LinearOrder G] (dist : G → G → Int) (hdist : IsDist dist) (bond : Nat) (hbond : 0 < bond)
    (dims : List (Dim G)) (hne : dims ≠ []) (hd : ∀ d ∈ dims, 0 < dimSize d) (c : G) (nPass : Nat) (ρ : Nat → Nat → Nat)
    (fac : Nat → List Nat → List Nat → List Nat → 𝕜) {sites : List (BT G 𝕜)}
    (h : randomUnit dist bond (dims.map RM.physOf) c nPass ρ fac = .ok sites) : BlockChain dims c bond (sites.map RM.parts) := by
  have e1 : (dims.map (RM.physOf (R := 𝕜))).map RM.cvalsOf = dims.map RM.charges := by
    simp [Function.comp_def, RM.cvalsOf_phys]
  unfold randomUnit at h
  rw [e1] at h
  cases hs : (List.range bond).mapM (fun j => RM.generate dist (dims.map RM.charges) c nPass (ρ j)) with
  | error e => rw [hs] at h; cases h
  | ok strings =>
    obtain ⟨hlen, hsne, hdn, htot⟩ := RM.strings_total dist hdist bond hbond dims hd c nPass ρ strings hs
    obtain ⟨raw, s1, s2, s3⟩ := RM.siteLoop_ok (R := 𝕜) fac hsne htot hdn dims 0 (by simp)
    simp only [zero_add] at s3
    rw [RM.accAt_zero, hlen] at s1
    simp only [RM.leftAt] at s1
    obtain ⟨ts, t1, t2⟩ := unitSites_ok raw fun t ht => by
      obtain ⟨k, hk⟩ := List.getElem?_of_mem ht
      obtain ⟨d, q1, q2, q3, q4⟩ := s3 k t hk
      exact q4.cons
    obtain ⟨T, back, e2, b1, h1, h2⟩ := RM.chain_end (sites := ts) hbond hne hd hlen hsne htot (by rw [← t2.length_eq, s2]) fun k t hk => by
      have hkl := (List.getElem?_eq_some_iff.1 hk).1
      have hkr : k < raw.length := by rw [t2.length_eq]; exact hkl
      have := t2.get hkr hkl
      rw [List.get_eq_getElem, List.get_eq_getElem, (List.getElem?_eq_some_iff.1 hk).2] at this
      obtain ⟨d, q1, q2, q3, q4⟩ := s3 k _ (List.getElem?_eq_getElem hkr)
      exact ⟨d, q1, this.1.trans q2, this.2.1.trans q3, this.2.2⟩
    simp only [hs, s1, t1, e2, BT.orUb, b1, bind, Except.bind] at h
    cases h
    exact h1

/-- The physical dimension read from a tensor of the Hamiltonian. -/
theorem physFrom_ok [AddCommGroup G] [DecidableEq G] {W : BT G 𝕜} (h4 : W.shape.length = 4) (hp : ∀ d ∈ W.shape, 0 < dimSize d) :
    physFrom W = .ok (RM.physOf (flipped (W.shape.getD 3 []))) := by
  obtain ⟨x, y, z, w, hs⟩ : ∃ x y z w, W.shape = [x, y, z, w] := by
    match h : W.shape, h4 with
    | [x, y, z, w], _ => exact ⟨x, y, z, w, rfl⟩
  unfold physFrom
  rw [C31_shape_from_partial W [0, 0, 0, -1] ?_ ?_]
  · simp only [bind, Except.bind]
    rw [C32_shape_from_list _ (by simp)]
    simp [setRule, inverseCvals, RM.physOf, hs, kept, flipped]
  · rw [hs] at hp ⊢
    refine .cons (.inr ⟨le_refl _, ?_⟩) (.cons (.inr ⟨le_refl _, ?_⟩) (.cons (.inr ⟨le_refl _, ?_⟩) (.cons (.inl rfl) .nil)))
    · exact_mod_cast hp x (by simp)
    · exact_mod_cast hp y (by simp)
    · exact_mod_cast hp z (by simp)
  · exact populated_of_pos hp

theorem physFroms_ok [AddCommGroup G] [DecidableEq G] : ∀ (Ws : List (BT G 𝕜)), (∀ W ∈ Ws, W.shape.length = 4) → (∀ W ∈ Ws, ∀ d ∈ W.shape, 0 < dimSize d) →
    Ws.mapM physFrom = .ok ((Ws.map fun W => flipped (W.shape.getD 3 [])).map RM.physOf)
  | [], _, _ => rfl
  | W :: Ws, h4, hp => by
    rw [List.mapM_cons, physFrom_ok (h4 W (by simp)) (hp W (by simp)), physFroms_ok Ws (fun x hx => h4 x (by simp [hx])) fun x hx => hp x (by simp [hx])]
    rfl

theorem length_le_size : ∀ (d : Dim G), (∀ s ∈ d, 0 < s.1) → d.length ≤ dimSize d
  | [], _ => by simp
  | s :: d, h => by
    have h1 := length_le_size d fun x hx => h x (by simp [hx])
    have h2 := h s (by simp)
    simp only [dimSize, List.map_cons, List.sum_cons, List.length_cons] at h1 ⊢
    omega

theorem sum_first [AddCommGroup G] {l : List G} {c : G} (h : ∀ (i : Nat) x, l[i]? = some x → x = if i = 0 then c else 0) (hne : l ≠ []) : l.sum = c := by
  cases l with
  | nil => exact absurd rfl hne
  | cons x l =>
    rw [List.sum_cons, h 0 x rfl, if_pos rfl, List.sum_eq_zero, add_zero]
    intro y hy
    obtain ⟨i, hi⟩ := List.getElem?_of_mem hy
    rw [h (i + 1) y (by simpa using hi), if_neg (by omega)]

/-- The random chain as a block state that the Hamiltonian acts on. -/
theorem chain_fits [AddCommGroup G] [LinearOrder G] {Ws sites : List (BT G 𝕜)} {c : G} {bond : Nat} (hbond : 0 < bond) (hsm : bond < 2 ^ 63)
    (hW : Chained 4 Ws) (hdual : ∀ W ∈ Ws, W.shape.getD 1 [] = flipped (W.shape.getD 3 [])) (hpos : ∀ W ∈ Ws, ∀ d ∈ W.shape, 0 < dimSize d) (hne : Ws ≠ [])
    (hB : BlockChain (Ws.map fun W => flipped (W.shape.getD 3 [])) c bond (sites.map RM.parts)) :
    BlockFit sites Ws sites ∧ AllPositive sites ∧ leftDim sites = [(1, 0)] ∧ rightDim sites = [(1, 0)] ∧ (sites.map BT.rule).sum = c ∧
      sites.map (fun t => t.shape.getD 1 []) = Ws.map fun W => W.shape.getD 1 [] := by
  have hlen : sites.length = Ws.length := by simpa using hB.length
  have hL : 0 < Ws.length := List.length_pos_iff.2 hne
  have hsite : ∀ (i : Nat) t, sites[i]? = some t → ∃ (l r : Dim G) (W : BT G 𝕜), Ws[i]? = some W ∧ t.shape = [l, flipped (W.shape.getD 3 []), r] ∧
      (i = 0 → l = [(1, 0)]) ∧ (i + 1 = Ws.length → r = [(1, 0)]) ∧ t.rule = (if i = 0 then c else 0) ∧ Conserving t.shape t.rule t.blocks := by
    intro i t ht
    obtain ⟨l, d, r, h1, h2, h3, h4, h5, h6⟩ := hB.site i (RM.parts t) (by rw [List.getElem?_map, ht]; rfl)
    rw [List.getElem?_map, Option.map_eq_some_iff] at h1
    obtain ⟨W, w1, rfl⟩ := h1
    exact ⟨l, r, W, w1, h2, h3, fun h => h4 (by simpa using h), h5, h6⟩
  have hbonds : ∀ (i : Nat) t t', sites[i]? = some t → sites[i + 1]? = some t' → ∃ r : Dim G, t.shape[2]? = some r ∧ t'.shape[0]? = some (flipped r) ∧
      dimSize r = bond ∧ ∀ s ∈ r, 0 < s.1 := by
    intro i t t' h h'
    exact hB.bonds i (RM.parts t) (RM.parts t') (by rw [List.getElem?_map, h]; rfl) (by rw [List.getElem?_map, h']; rfl)
  have hphys : ∀ (i : Nat) t W, sites[i]? = some t → Ws[i]? = some W → t.shape.getD 1 [] = flipped (W.shape.getD 3 []) := by
    intro i t W ht hw
    obtain ⟨l, r, W', w1, h2, -⟩ := hsite i t ht
    rw [hw] at w1; cases w1
    rw [h2]; rfl
  have hdim : ∀ (i : Nat) t, sites[i]? = some t → ∀ d ∈ t.shape, 0 < dimSize d ∧ d.length < 2 ^ 63 := by
    intro i t ht d hd
    obtain ⟨l, r, W, w1, h2, h3, h4, -⟩ := hsite i t ht
    have hi := (List.getElem?_eq_some_iff.1 ht).1
    rw [h2] at hd
    simp only [List.mem_cons, List.not_mem_nil, or_false] at hd
    have small : ∀ r : Dim G, dimSize r = bond → (∀ s ∈ r, 0 < s.1) → 0 < dimSize r ∧ r.length < 2 ^ 63 := fun r g1 g2 =>
      ⟨by omega, lt_of_le_of_lt (length_le_size r g2) (by rw [g1]; exact hsm)⟩
    rcases hd with rfl | rfl | rfl
    · cases i with
      | zero => rw [h3 rfl]; exact ⟨by simp [dimSize], by norm_num⟩
      | succ i =>
        obtain ⟨r', g1, g2, g3, g4⟩ := hbonds i _ t (List.getElem?_eq_getElem (by omega)) ht
        rw [h2] at g2
        cases g2
        rw [dimSize_flipped, flipped, List.length_map]
        exact small r' g3 g4
    · have hw := List.mem_of_getElem? w1
      obtain ⟨⟨-, q1⟩, q2⟩ := hW.1 W hw
      have q3 : W.shape.getD 3 [] ∈ W.shape := by
        rw [List.getD_eq_getElem _ _ (by omega)]; exact List.getElem_mem _
      rw [dimSize_flipped, flipped, List.length_map]
      exact ⟨hpos W hw _ q3, q1 _ q3⟩
    · by_cases hl : i + 1 = Ws.length
      · rw [h4 hl]; exact ⟨by simp [dimSize], by norm_num⟩
      · obtain ⟨r', g1, g2, g3, g4⟩ := hbonds i t _ ht (List.getElem?_eq_getElem (by omega))
        rw [h2] at g1
        cases g1
        exact small _ g3 g4
  have hket : Chained 3 sites := by
    refine ⟨fun t ht => ?_, fun i t t' h h' => ?_⟩
    · obtain ⟨i, hi⟩ := List.getElem?_of_mem ht
      obtain ⟨l, r, W, w1, h2, h3, h4, h5, h6⟩ := hsite i t hi
      exact ⟨⟨h6, fun d hd => (hdim i t hi d hd).2⟩, by rw [h2]; rfl⟩
    · obtain ⟨r, g1, g2, -⟩ := hbonds i t t' h h'
      rw [List.getD_eq_getElem?_getD, List.getD_eq_getElem?_getD, g1, g2]
      exact opposite_flipped r
  have hall : List.Forall₂ (fun t W => t.shape.getD 1 [] = flipped (W.shape.getD 3 [])) sites Ws := by
    rw [List.forall₂_iff_get]
    refine ⟨hlen, fun i h h' => ?_⟩
    exact hphys i _ _ (List.getElem?_eq_getElem h) (List.getElem?_eq_getElem h')
  have hWmem : List.Forall₂ (fun t W => t.shape.getD 1 [] = flipped (W.shape.getD 3 []) ∧ W ∈ Ws) sites Ws := by
    rw [List.forall₂_iff_get] at hall ⊢
    exact ⟨hall.1, fun i h h' => ⟨hall.2 i h h', List.get_mem _ _⟩⟩
  have hs0 : 0 < sites.length := by omega
  refine ⟨⟨hket, hW, hket, ?_, ?_⟩, ?_, ?_, ?_, ?_, ?_⟩
  · refine hall.imp fun t W h => ?_
    rw [h]; exact flipped_opposite _
  · refine (hWmem.imp (S := fun t W => W.shape.getD 1 [] = t.shape.getD 1 []) fun t W h => ?_).flip
    rw [h.1]; exact hdual W h.2
  · intro t ht d hd
    obtain ⟨i, hi⟩ := List.getElem?_of_mem ht
    exact (hdim i t hi d hd).1
  · obtain ⟨l, r, W, w1, h2, h3, -⟩ := hsite 0 _ (List.getElem?_eq_getElem hs0)
    unfold leftDim
    rw [List.head?_eq_getElem?, List.getElem?_eq_getElem hs0]
    simp only [h2]
    exact h3 rfl
  · obtain ⟨l, r, W, w1, h2, h3, h4, -⟩ := hsite (sites.length - 1) _ (List.getElem?_eq_getElem (by omega))
    unfold rightDim
    rw [List.getLast?_eq_getElem?, List.getElem?_eq_getElem (by omega)]
    simp only [h2]
    exact h4 (by omega)
  · refine sum_first (fun i x hx => ?_) (by intro e; have := congrArg List.length e; simp at this; rw [this] at hs0; simp at hs0)
    rw [List.getElem?_map, Option.map_eq_some_iff] at hx
    obtain ⟨t, ht, rfl⟩ := hx
    obtain ⟨l, r, W, w1, h2, h3, h4, h5, -⟩ := hsite i t ht
    exact h5
  · refine List.ext_getElem (by simp [hlen]) fun i h h' => ?_
    simp only [List.length_map] at h h'
    simp only [List.getElem_map]
    rw [hphys i _ _ (List.getElem?_eq_getElem h) (List.getElem?_eq_getElem h')]
    exact (hdual _ (List.getElem_mem _)).symm

end QuantiT.BN
