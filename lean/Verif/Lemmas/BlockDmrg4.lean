import Verif.Lemmas.BlockDmrg3
import Verif.Lemmas.BlockMove
import Verif.Props.Update
/-
Environments, edges and new sites of the block DMRG.
-/
namespace QuantiT.BN
open Spec BT MP Finset

/-! ### Results that no longer depend on the fuel -/

theorem settle_eq {α : Type} {f : Nat → Option (Res α)} {r : Res α} {N : Nat} (h : ∀ fuel, N ≤ fuel → f fuel = some r) :
    settle f = r := by
  unfold settle
  have hex : ∃ r, ∃ N, ∀ fuel, N ≤ fuel → f fuel = some r := ⟨r, N, h⟩
  rw [dif_pos hex]
  obtain ⟨N', h'⟩ := hex.choose_spec
  have h1 := h (max N N') (by omega)
  have h2 := h' (max N N') (by omega)
  rw [h1] at h2
  exact (Option.some.inj h2).symm

section
variable {G R : Type} [AddCommGroup G] [DecidableEq G] [Semiring R]

/-- More fuel changes no result. -/
def Mono {α : Type} (f : Nat → Option α) : Prop := ∀ n m r, n ≤ m → f n = some r → f m = some r

theorem Mono.const {α : Type} (x : Option α) : Mono fun _ => x := fun _ _ _ _ h => h

theorem Mono.andThen {α β : Type} {f : Nat → Option (Res α)} {g : Nat → α → Option (Res β)} (hf : Mono f) (hg : ∀ a, Mono fun n => g n a) :
    Mono fun n => andThen (f n) (g n) := by
  intro n m r hnm h
  simp only at h ⊢
  cases hfn : f n with
  | none => rw [hfn] at h; cases h
  | some x =>
    rw [hfn] at h
    rw [hf n m x hnm hfn]
    cases x with
    | error e => exact h
    | ok a => exact hg a n m r hnm h

theorem mono_tensordot (a b : BT G R) (da db : List Nat) : Mono fun n => tensordot n a b da db := fun _ _ _ h => tensordot_mono h

theorem mono_envLeft (c : R → R) (W A B L : BT G R) : Mono fun n => envLeft n c W A B L :=
  (mono_tensordot _ _ _ _).andThen fun _ => (mono_tensordot _ _ _ _).andThen fun _ => mono_tensordot _ _ _ _

theorem mono_envRight (c : R → R) (W A Rt : BT G R) : Mono fun n => envRight n c W A Rt :=
  (mono_tensordot _ _ _ _).andThen fun _ => (mono_tensordot _ _ _ _).andThen fun _ => mono_tensordot _ _ _ _

end

variable {G 𝕜 : Type} [RCLike 𝕜] [AddCommGroup G] [DecidableEq G]

theorem lenvB_ok {Ws : List (BT G 𝕜)} {i : Nat} {A W L L' : BT G 𝕜} (hW : Ws[i]? = some W) {n : Nat}
    (h : envLeft n star W A A L = some (.ok L')) : lenvB Ws i A (.ok L) = .ok L' := by
  refine settle_eq (N := n) fun fuel hf => ?_
  simp only [andNext, andThen, hW, orUb]
  exact mono_envLeft star W A A L n fuel _ hf h

theorem renvB_ok {Ws : List (BT G 𝕜)} {i : Nat} {A W L L' : BT G 𝕜} (hW : Ws[i]? = some W) {n : Nat}
    (h : envRight n star W A L = some (.ok L')) : renvB Ws i A (.ok L) = .ok L' := by
  refine settle_eq (N := n) fun fuel hf => ?_
  simp only [andNext, andThen, hW, orUb]
  exact mono_envRight star W A L n fuel _ hf h

theorem foldl_lenvB (Ws : List (BT G 𝕜)) : ∀ (l : List (BT G 𝕜)) (k n : Nat) (L Le : BT G 𝕜),
    leftEnvs n star l (Ws.drop k) L = some (.ok Le) →
    (l.zipIdx k).foldl (fun acc p => lenvB Ws p.2 p.1 acc) (.ok L) = .ok Le
  | [], k, n, L, Le, h => by
    simp only [leftEnvs] at h
    exact Option.some.inj h
  | A :: l, k, n, L, Le, h => by
    rw [List.zipIdx_cons, List.foldl_cons]
    cases hw : Ws[k]? with
    | none =>
      rw [List.drop_eq_nil_of_le (List.getElem?_eq_none_iff.1 hw)] at h
      simp only [leftEnvs] at h
      cases h
    | some W =>
      have hd : Ws.drop k = W :: Ws.drop (k + 1) := by
        obtain ⟨hk, hg⟩ := List.getElem?_eq_some_iff.1 hw
        rw [List.drop_eq_getElem_cons hk, hg]
      rw [hd] at h
      simp only [leftEnvs] at h
      cases he : envLeft n star W A A L with
      | none => rw [he] at h; cases h
      | some r =>
        rw [he] at h
        cases r with
        | error f => cases h
        | ok L' =>
          rw [lenvB_ok hw he]
          exact foldl_lenvB Ws l (k + 1) n L' Le h

theorem foldr_renvB (Ws : List (BT G 𝕜)) (e : BT G 𝕜) : ∀ (l : List (BT G 𝕜)) (k n : Nat) (Re : BT G 𝕜),
    rightEnvs n star l (Ws.drop k) e = some (.ok Re) →
    (l.zipIdx k).foldr (fun p acc => renvB Ws p.2 p.1 acc) (.ok e) = .ok Re
  | [], k, n, Re, h => by
    simp only [rightEnvs] at h
    exact Option.some.inj h
  | A :: l, k, n, Re, h => by
    rw [List.zipIdx_cons, List.foldr_cons]
    cases hw : Ws[k]? with
    | none =>
      rw [List.drop_eq_nil_of_le (List.getElem?_eq_none_iff.1 hw)] at h
      simp only [rightEnvs] at h
      cases h
    | some W =>
      have hd : Ws.drop k = W :: Ws.drop (k + 1) := by
        obtain ⟨hk, hg⟩ := List.getElem?_eq_some_iff.1 hw
        rw [List.drop_eq_getElem_cons hk, hg]
      rw [hd] at h
      simp only [rightEnvs] at h
      cases he : rightEnvs n star l (Ws.drop (k + 1)) e with
      | none => rw [he] at h; cases h
      | some r =>
        rw [he] at h
        cases r with
        | error f => cases h
        | ok r' =>
          rw [foldr_renvB Ws e l (k + 1) n r' he]
          exact renvB_ok hw h

theorem leftEnvs_takeB (n : Nat) (c : 𝕜 → 𝕜) : ∀ (a Ws : List (BT G 𝕜)) (L : BT G 𝕜), a.length ≤ Ws.length →
    leftEnvs n c a Ws L = leftEnvs n c a (Ws.take a.length) L
  | [], Ws, L, _ => by cases Ws <;> simp [leftEnvs]
  | A :: a, [], L, h => by simp at h
  | A :: a, W :: Ws, L, h => by
    simp only [List.length_cons, List.take_succ_cons, leftEnvs]
    congr 1
    funext L'
    exact leftEnvs_takeB n c a Ws L' (by simpa using h)

theorem left_bDmrg {late : Bool} {Ws s0 s : List (BT G 𝕜)} {svd} {o n : Nat} {L Le : BT G 𝕜} (ho : o ≤ s.length)
    (hl : Ws.length = s.length) (hL : (bDmrg late Ws svd s0).edgeL = .ok L)
    (h : leftEnvs n star (s.take o) (Ws.take o) L = some (.ok Le)) : (bDmrg late Ws svd s0).left s o = .ok Le := by
  unfold Dmrg.left
  rw [hL]
  have : s.zipIdx.take o = (s.take o).zipIdx 0 := by
    apply List.ext_getElem?
    intro i
    rw [List.getElem?_take, List.getElem?_zipIdx, List.getElem?_zipIdx, List.getElem?_take]
    split <;> simp
  rw [this]
  refine foldl_lenvB Ws _ 0 n L Le ?_
  rw [List.drop_zero, leftEnvs_takeB _ _ _ _ _ (by simp; omega)]
  rw [show (s.take o).length = o by simp; omega]
  exact h

theorem right_bDmrg {late : Bool} {Ws s0 s : List (BT G 𝕜)} {svd} {o n : Nat} {Rt Re : BT G 𝕜}
    (hR : (bDmrg late Ws svd s0).edgeR = .ok Rt)
    (h : rightEnvs n star (s.drop o) (Ws.drop o) Rt = some (.ok Re)) : (bDmrg late Ws svd s0).right s o = .ok Re := by
  unfold Dmrg.right
  rw [hR]
  have : s.zipIdx.drop o = (s.drop o).zipIdx o := by
    apply List.ext_getElem?
    intro i
    rw [List.getElem?_drop, List.getElem?_zipIdx, List.getElem?_zipIdx, List.getElem?_drop]
    simp
  rw [this]
  exact foldr_renvB Ws Rt _ o n Re h

/-- The edges, for ends of size one. -/
theorem edges_bDmrg (late : Bool) (Ws s0 : List (BT G 𝕜)) (svd) (k0 : Chained 3 s0) (n0 : s0 ≠ []) (kW : Chained 4 Ws) (nW : Ws ≠ [])
    (p0 : AllPositive s0) (pW : AllPositive Ws) (c0 : Closed (s0.map denseOf)) (cW : Closed (Ws.map denseOf))
    (hl : late = false ∨ chargeAt (leftDim Ws) 0 = 0 ∧ chargeAt (rightDim Ws) 0 = 0) :
    ∃ N L Rt, (∀ fuel, N ≤ fuel → envEdges late fuel Ws s0 = some (.ok (L, Rt))) ∧
      (bDmrg late Ws svd s0).edgeL = .ok L ∧ (bDmrg late Ws svd s0).edgeR = .ok Rt ∧
      L.shape = [flipped (leftDim s0), flipped (leftDim Ws), leftDim s0] ∧
      Rt.shape = [flipped (rightDim s0), flipped (rightDim Ws), rightDim s0] ∧
      L.rule = -chargeAt (leftDim Ws) 0 ∧ Rt.rule = -chargeAt (rightDim Ws) 0 ∧
      Rep L (MP.onesLike [1, 1, 1]) ∧ Rep Rt (MP.onesLike [1, 1, 1]) := by
  obtain ⟨x, hx⟩ : ∃ x, s0.head? = some x := ⟨_, List.head?_eq_some_head n0⟩
  obtain ⟨x', hx'⟩ : ∃ x, s0.getLast? = some x := ⟨_, List.getLast?_eq_some_getLast n0⟩
  obtain ⟨W, hW⟩ : ∃ x, Ws.head? = some x := ⟨_, List.head?_eq_some_head nW⟩
  obtain ⟨W', hW'⟩ : ∃ x, Ws.getLast? = some x := ⟨_, List.getLast?_eq_some_getLast nW⟩
  obtain ⟨N, L, Rt, e1, e2, e3, e4, e5, e6, e7, e8, e9⟩ := C78_edges (R := 𝕜) late Ws s0 x x' W W' hx hW hx' hW' p0 pW k0 kW
  have d1 := c0.1
  have d2 := c0.2
  have d3 := cW.1
  have d4 := cW.2
  rw [leftEnd_dense] at d1 d3
  rw [rightEnd_dense] at d2 d4
  have key : ∀ (t : BT G 𝕜) (a b : Dim G), t.shape = [flipped a, flipped b, a] → Sound t → dimSize a = 1 → dimSize b = 1 →
      entry t.shape t.blocks [0, 0, 0] = 1 → Rep t (MP.onesLike [1, 1, 1]) := by
    intro t a b hs ht ha hb he
    refine ⟨ht, ?_, fun o ho => ?_⟩
    · simp only [denseOf, hs, List.map_cons, List.map_nil, dimSize_flipped, ha, hb]
      rfl
    · simp only [denseOf, hs, List.map_cons, List.map_nil, dimSize_flipped, ha, hb] at ho
      unfold InRange at ho
      cases ho with
      | cons h1 h => cases h with
        | cons h2 h => cases h with
          | cons h3 h =>
            cases h
            obtain rfl := Nat.lt_one_iff.1 h1
            obtain rfl := Nat.lt_one_iff.1 h2
            obtain rfl := Nat.lt_one_iff.1 h3
            exact he
  refine ⟨N, L, Rt, e1, ?_, ?_, e2, e3, ?_, ?_, key L _ _ e2 e4 d1 d3 ?_, key Rt _ _ e3 e5 d2 d4 ?_⟩
  · exact settle_eq (N := N) fun fuel hf => by simp only [e1 fuel hf, andThen]
  · exact settle_eq (N := N) fun fuel hf => by simp only [e1 fuel hf, andThen]
  · rw [e6]
    rcases hl with rfl | ⟨h1, h2⟩
    · simp
    · simp [h1]
  · rw [e7]
    rcases hl with rfl | ⟨h1, h2⟩
    · simp
    · simp [h2]
  · rw [e8 0 0 0 (by omega) (by omega) (by omega), if_pos (by rcases hl with rfl | ⟨h1, h2⟩ <;> simp [*])]
  · rw [e9 0 0 0 (by omega) (by omega) (by omega), if_pos (by rcases hl with rfl | ⟨h1, h2⟩ <;> simp [*])]

end QuantiT.BN
