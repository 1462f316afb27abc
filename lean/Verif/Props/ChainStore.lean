import Verif.Model.ChainStore
import Verif.Props.Mps
import Verif.Props.MoveOc
/-
C95: what holds of the MPS variables of a program, whatever its history.
-/
namespace QuantiT
namespace MP
open Spec
variable {R G : Type}

/-- Nothing stored, or a linked chain with its center inside. -/
def GoodMps (m : MPS R) : Prop := m.sites = [] ∨ (Linked 3 (m.sites.map Blk.dims) ∧ m.oc < m.sites.length)

theorem ranksLoop_true (rank : Nat) : ∀ (l : List (List Nat)) (prev : Nat), ranksLoop rank prev l = .ok true → ∀ s ∈ l, s.length = rank
  | [], _, _ => by simp
  | ds :: rest, prev, h => by
    unfold ranksLoop at h
    cases h2 : ds[2]? with
    | none => rw [h2] at h; cases h
    | some bond =>
      rw [h2] at h
      simp only at h
      split at h
      next hr =>
        cases h0 : ds[0]? with
        | none => rw [h0] at h; cases h
        | some left =>
          rw [h0] at h
          simp only at h
          split at h
          · intro s hs
            rcases List.mem_cons.1 hs with rfl | hs
            · exact hr
            · exact ranksLoop_true rank rest bond h s hs
          · cases h
      next => cases h

theorem mkMps_ok {sizes : List (List Nat)} {oc oc' : Nat} (h : mkMps sizes oc = .ok oc') :
    oc' = oc ∧ Linked 3 sizes ∧ oc < sizes.length := by
  have h0 := h
  unfold mkMps at h
  cases hc : checkRanks 3 sizes with
  | error e => rw [hc] at h; cases h
  | ok b =>
    rw [hc] at h
    simp only [bind, Except.bind] at h
    cases b with
    | false => simp at h; cases h
    | true =>
      have hne : sizes ≠ [] := by rintro rfl; cases hc
      have hr : ∀ s ∈ sizes, s.length = 3 := by
        unfold checkRanks at hc
        cases sizes with
        | nil => cases hc
        | cons ds rest =>
          simp only at hc
          cases hd : ds[0]? with
          | none => rw [hd] at hc; cases hc
          | some prev => rw [hd] at hc; exact ranksLoop_true 3 _ _ hc
      have hp := C44_mps_partial sizes oc hne fun s hs => (hr s hs).ge
      by_cases hl : Linked 3 sizes ∧ oc < sizes.length
      · rw [hp.1 hl] at h0
        injection h0 with h0
        exact ⟨h0.symm, hl.1, hl.2⟩
      · rw [hp.2 hl] at h0; cases h0

theorem mkMpsFill_ok {n : Nat} {s : List Nat} {oc oc' : Nat} (h : mkMpsFill n s oc = .ok oc') :
    oc' = oc ∧ Linked 3 (List.replicate n s) ∧ (n = 0 ∨ oc < n) := by
  unfold mkMpsFill at h
  simp only at h
  split at h
  · cases h
  next h1 =>
    split at h
    · cases h
    next h2 =>
      simp only [decide_eq_true_eq, not_not] at h2
      injection h with h
      refine ⟨h.symm, ⟨?_, ?_⟩, by omega⟩
      · intro t ht; rw [List.eq_of_mem_replicate ht]; exact h2.1
      · intro i a b ha hb
        rw [List.eq_of_mem_replicate (List.mem_of_getElem? ha), List.eq_of_mem_replicate (List.mem_of_getElem? hb)]
        exact h2.2.symm

/-- What is known of a variable: it is fine, it represents the state it should, and is in canonical form if `can`. -/
structure Kept [Semiring R] [StarRing R] (can : Prop) (s : List (Blk R)) (m : MPS R) : Prop where
  good : GoodMps m
  same : SameState s m.sites
  canon : can → Canonical m.sites m.oc

theorem Kept.nil [Semiring R] [StarRing R] (can : Prop) (oc : Nat) : Kept can ([] : List (Blk R)) ⟨[], oc⟩ :=
  ⟨Or.inl rfl, SameState.refl _, fun _ => ⟨by simp, by simp⟩⟩

theorem kept_set {α β : Type} {P : α → β → Prop} {as : List α} {bs : List β} (h : List.Forall₂ P as bs) (x : Nat) {a : α} {b : β}
    (hab : P a b) : List.Forall₂ P (as.set x a) (bs.set x b) := by
  induction h generalizing x with
  | nil => exact .nil
  | cons h t ih =>
    cases x with
    | zero => exact .cons hab t
    | succ x => exact .cons h (ih x)

theorem kept_append {α β : Type} {P : α → β → Prop} {as : List α} {bs : List β} (h : List.Forall₂ P as bs) {a : α} {b : β}
    (hab : P a b) : List.Forall₂ P (as ++ [a]) (bs ++ [b]) := by
  induction h with
  | nil => exact .cons hab .nil
  | cons h t ih => exact .cons h ih

theorem kept_get {α β : Type} {P : α → β → Prop} {as : List α} {bs : List β} (h : List.Forall₂ P as bs) (x : Nat) {b : β} (d : α)
    (hb : bs[x]? = some b) : P (as.getD x d) b := by
  induction h generalizing x with
  | nil => simp at hb
  | cons h t ih =>
    cases x with
    | zero => simp at hb; subst hb; exact h
    | succ x => simp at hb; simpa using ih x hb

theorem orUb_ok {α : Type} {o : Option α} {x : α} (h : BT.orUb o = .ok x) : o = some x := by
  cases o with
  | none => cases h
  | some y => injection h with h; rw [h]

theorem chainStep_kept [CommSemiring R] [StarRing R] {svd : Blk R → Nat → Blk R × Blk R × Blk R} (hsvd : SvdOk svd) {can : Prop}
    {ss : List (List (Blk R))} {vs vs' : List (MPS R)} (s : ChainCmd R) (hs : s.NoModifier) (hcan : can → s.BuildsCanonical)
    (h : List.Forall₂ (Kept can) ss vs) (hr : chainStep star svd vs s = .ok vs') :
    List.Forall₂ (Kept can) (stateStep ss s) vs' := by
  have bnd : ∀ {α β : Type} {x : Res α} {f : α → Res β} {y : β}, (x >>= f) = .ok y → ∃ a, x = .ok a ∧ f a = .ok y := by
    intro α β x f y hx
    cases x with
    | error e => cases hx
    | ok a => exact ⟨a, rfl, hx⟩
  cases s with
  | pushBack => exact hs.elim
  | popBack => exact hs.elim
  | erase => exact hs.elim
  | insert => exact hs.elim
  | clear => exact hs.elim
  | build sites oc =>
    obtain ⟨oc', h1, h2⟩ := bnd hr
    injection h2 with h2
    subst h2
    obtain ⟨rfl, hl, ho⟩ := mkMps_ok h1
    exact kept_append h ⟨Or.inr ⟨hl, by simpa using ho⟩, SameState.refl _, fun hc => hcan hc⟩
  | fill n t oc =>
    obtain ⟨oc', h1, h2⟩ := bnd hr
    injection h2 with h2
    subst h2
    obtain ⟨rfl, hl, ho⟩ := mkMpsFill_ok h1
    refine kept_append h ⟨?_, SameState.refl _, fun hc => hcan hc⟩
    rcases ho with rfl | ho
    · exact Or.inl rfl
    · exact Or.inr ⟨by simpa using hl, by simpa using ho⟩
  | empty =>
    injection hr with hr
    subst hr
    exact kept_append h (Kept.nil can 0)
  | copy y =>
    obtain ⟨m, h1, h2⟩ := bnd hr
    injection h2 with h2
    subst h2
    exact kept_append h (kept_get h y [] (orUb_ok h1))
  | take y =>
    obtain ⟨m, h1, h2⟩ := bnd hr
    injection h2 with h2
    subst h2
    exact kept_append (kept_set h y (Kept.nil can _)) (kept_get h y [] (orUb_ok h1))
  | assign x y =>
    obtain ⟨m, h1, h2⟩ := bnd hr
    obtain ⟨w, h3, h4⟩ := bnd h2
    injection h4 with h4
    subst h4
    exact kept_set h x (kept_get h y [] (orUb_ok h1))
  | assignTake x y =>
    obtain ⟨m, h1, h2⟩ := bnd hr
    obtain ⟨w, h3, h4⟩ := bnd h2
    injection h4 with h4
    subst h4
    simp only [stateStep]
    split
    next hxy =>
      subst hxy
      rw [List.set_set]
      have := List.getElem?_eq_some_iff.1 (orUb_ok h1)
      obtain ⟨hlt, he⟩ := this
      rw [← he, List.set_getElem_self]
      exact h
    next => exact kept_set (kept_set h y (Kept.nil can _)) x (kept_get h y [] (orUb_ok h1))
  | swap x y =>
    obtain ⟨m, h1, h2⟩ := bnd hr
    obtain ⟨m', h3, h4⟩ := bnd h2
    injection h4 with h4
    subst h4
    exact kept_set (kept_set h x (kept_get h y [] (orUb_ok h3))) y (kept_get h x [] (orUb_ok h1))
  | moveOc x i =>
    obtain ⟨m, h1, h2⟩ := bnd hr
    obtain ⟨m', h3, h4⟩ := bnd h2
    injection h4 with h4
    subst h4
    have hx := orUb_ok h1
    have hk := kept_get h x [] hx
    have hm : Kept can (ss.getD x []) m' := by
      by_cases hi : 0 ≤ i ∧ i < m.sites.length
      · rcases hk.good with h0 | ⟨hl, ho⟩
        · rw [h0] at hi; simp at hi; omega
        · obtain ⟨j, rfl⟩ := Int.eq_ofNat_of_zero_le hi.1
          obtain ⟨m'', e1, e2, e3, e4, e5, _, _, _, e6⟩ := C45_move_oc hsvd m hl ho j (by omega)
          rw [e1] at h3
          injection h3 with h3
          subst h3
          exact ⟨Or.inr ⟨e5, by omega⟩, SameState.trans hk.same e4, fun hc => by rw [e2]; exact e6 (hk.canon hc)⟩
      · rw [C45_reject _ _ _ _ (by omega)] at h3; cases h3
    have hset : stateStep ss (.moveOc x i) = ss.set x (ss.getD x []) := by
      simp only [stateStep]
      apply List.ext_getElem?
      intro n
      rw [List.getElem?_set]
      split
      next hxn =>
        subst hxn
        split
        next hlt => simp [List.getD, List.getElem?_eq_getElem hlt]
        next hlt => exact List.getElem?_eq_none (by omega)
      next => rfl
    rw [hset]
    exact kept_set h x hm

theorem chainRun_kept [CommSemiring R] [StarRing R] {svd : Blk R → Nat → Blk R × Blk R × Blk R} (hsvd : SvdOk svd) {can : Prop} :
    ∀ (p : List (ChainCmd R)) (ss : List (List (Blk R))) (vs vs' : List (MPS R)), (∀ s ∈ p, s.NoModifier) →
      (can → ∀ s ∈ p, s.BuildsCanonical) → List.Forall₂ (Kept can) ss vs → chainRun star svd p vs = .ok vs' →
      List.Forall₂ (Kept can) (p.foldl stateStep ss) vs'
  | [], ss, vs, vs', _, _, h, hr => by injection hr with hr; subst hr; exact h
  | s :: p, ss, vs, vs', hn, hc, h, hr => by
    unfold chainRun at hr
    cases h1 : chainStep star svd vs s with
    | error e => rw [h1] at hr; cases hr
    | ok vs1 =>
      rw [h1] at hr
      exact chainRun_kept hsvd p _ vs1 vs' (fun x hx => hn x (List.mem_cons_of_mem _ hx))
        (fun hcan x hx => hc hcan x (List.mem_cons_of_mem _ hx))
        (chainStep_kept hsvd s (hn s (List.mem_cons_self ..)) (fun hcan => hc hcan s (List.mem_cons_self ..)) h h1) hr

/-- `C95`: after any program without the modifiers of `std::vector` — constructions, copies, moves, assignments, swaps and
moves of the center, in any order — every variable is empty or a linked chain with its center inside, represents the state that it
was given, and is in canonical form if all chains were built so; and its center can be moved to any site. -/
theorem C95_histories_partial [CommSemiring R] [StarRing R] {svd : Blk R → Nat → Blk R × Blk R × Blk R} (hsvd : SvdOk svd)
    (p : List (ChainCmd R)) (hp : ∀ s ∈ p, s.NoModifier) (vs : List (MPS R)) (hr : chainRun star svd p [] = .ok vs) :
    vs.length = (stateRun p).length ∧ ∀ x m, vs[x]? = some m →
      (m.sites = [] ∨ (Linked 3 (m.sites.map Blk.dims) ∧ m.oc < m.sites.length)) ∧
      SameState ((stateRun p).getD x []) m.sites ∧
      ((∀ s ∈ p, s.BuildsCanonical) → Canonical m.sites m.oc) ∧
      ∀ i : Int, 0 ≤ i → i < m.sites.length → ∃ m', chainStep star svd vs (.moveOc x i) = .ok (vs.set x m') ∧ m'.oc = i.toNat := by
  have h := chainRun_kept (can := ∀ s ∈ p, s.BuildsCanonical) hsvd p [] [] vs hp id .nil hr
  refine ⟨h.length_eq.symm, fun x m hx => ?_⟩
  have hk := kept_get h x [] hx
  refine ⟨hk.good, hk.same, hk.canon, fun i h0 hi => ?_⟩
  rcases hk.good with he | ⟨hl, ho⟩
  · rw [he] at hi; simp at hi; omega
  · obtain ⟨j, rfl⟩ := Int.eq_ofNat_of_zero_le h0
    obtain ⟨m', e1, e2, _⟩ := C45_move_oc hsvd m hl ho j (by omega)
    refine ⟨m', ?_, by simpa using e2⟩
    simp only [chainStep, hx, BT.orUb, bind, Except.bind, e1]

/-- `C95` fails with the modifiers: `pop_back` and `erase` do not move the center.  When it is on the last of several sites, it is
left outside the chain, and the next `move_oc` reads there. -/
theorem C95_shrink_fails [Semiring R] (c : R → R) (svd : Blk R → Nat → Blk R × Blk R × Blk R) (vs : List (MPS R)) (x : Nat) (m : MPS R)
    (hx : vs[x]? = some m) (hoc : m.oc + 1 = m.sites.length) (h2 : 2 ≤ m.sites.length) (p : Nat) (hp : p < m.sites.length)
    (i : Int) (h0 : 0 ≤ i) (hi : i + 1 < m.sites.length) :
    chainRun c svd [.popBack x, .moveOc x i] vs = Res.ub ∧ chainRun c svd [.erase x p, .moveOc x i] vs = Res.ub := by
  have hlt := (List.getElem?_eq_some_iff.1 hx).1
  have key : ∀ s : List (Blk R), s.length + 1 = m.sites.length → chainStep c svd (vs.set x ⟨s, m.oc⟩) (.moveOc x i) = Res.ub := by
    intro s hs
    simp only [chainStep, List.getElem?_set_self hlt, BT.orUb, bind, Except.bind, moveOc]
    rw [if_neg (by omega), List.getElem?_eq_none (by omega)]
    rfl
  constructor
  · have h1 : chainStep c svd vs (.popBack x) = .ok (vs.set x ⟨m.sites.dropLast, m.oc⟩) := by
      simp only [chainStep, hx, BT.orUb, bind, Except.bind]
      rw [if_neg (by omega)]
    simp only [chainRun, h1, bind, Except.bind]
    rw [key _ (by simp; omega)]
    rfl
  · have h1 : chainStep c svd vs (.erase x p) = .ok (vs.set x ⟨m.sites.eraseIdx p, m.oc⟩) := by
      simp only [chainStep, hx, BT.orUb, bind, Except.bind]
      rw [if_neg (by omega)]
    simp only [chainRun, h1, bind, Except.bind]
    rw [key _ (by rw [List.length_eraseIdx_of_lt hp]; omega)]
    rfl

/-- `C95` fails with the modifiers: `push_back` accepts a tensor that does not fit. -/
theorem C95_push_back_fails [Semiring R] (c : R → R) (svd : Blk R → Nat → Blk R × Blk R × Blk R) (vs : List (MPS R)) (x : Nat) (m : MPS R)
    (hx : vs[x]? = some m) (t : Blk R) (ht : t.dims.length ≠ 3) :
    ∃ m', chainStep c svd vs (.pushBack x t) = .ok (vs.set x m') ∧ ¬ Linked 3 (m'.sites.map Blk.dims) := by
  refine ⟨⟨m.sites ++ [t], m.oc⟩, by simp only [chainStep, hx, BT.orUb, bind, Except.bind], fun h => ht (h.1 t.dims ?_)⟩
  simp

/-- `bMPS(begin, end)` leaves its center uninitialised: there are contents of that memory for which `move_oc` reads outside the
chain, for every chain and every site. -/
theorem C95_range_fails [AddCommGroup G] [LinearOrder G] [Semiring R] (fuel : Nat) (c : R → R) (fac : Blk R → Blk R × Blk R × Blk R)
    (sites : List (BT G R)) (i : Int) (h0 : 0 ≤ i) (hi : i < sites.length) :
    ∃ junk, BN.moveOcB fuel c fac (bmpsFromRange junk sites) i = some Res.ub := by
  refine ⟨sites.length, ?_⟩
  unfold BN.moveOcB bmpsFromRange
  simp only
  rw [if_neg (by omega)]
  obtain ⟨n, hn⟩ : ∃ n, sites.length - i.toNat = n + 1 := ⟨sites.length - i.toNat - 1, by omega⟩
  rw [hn]
  simp only [BN.movesLeft, BN.moveLeft, List.getElem?_eq_none (le_refl _), BT.orUb, BN.andThen]
  rfl

/-- A program over the integers: two variables from one chain, one of them moved and its center moved back and forth. -/
example : ∃ vs, chainRun star idSvd [.build [⟨[1, 2, 2], fun o => (o.sum : ℤ)⟩, ⟨[2, 2, 1], fun _ => 3⟩] 1, .copy 0, .moveOc 0 0,
      .take 0, .swap 1 2, .moveOc 1 1, .moveOc 1 0] [] = .ok vs ∧ vs.length = 3 ∧
      SameState [⟨[1, 2, 2], fun o => (o.sum : ℤ)⟩, ⟨[2, 2, 1], fun _ => 3⟩] (vs.getD 1 ⟨[], 0⟩).sites := by
  have hr : ∃ vs, chainRun star idSvd [.build [⟨[1, 2, 2], fun o => (o.sum : ℤ)⟩, ⟨[2, 2, 1], fun _ => 3⟩] 1, .copy 0, .moveOc 0 0,
      .take 0, .swap 1 2, .moveOc 1 1, .moveOc 1 0] [] = .ok vs := ⟨_, rfl⟩
  obtain ⟨vs, hr⟩ := hr
  obtain ⟨h1, h2⟩ := C95_histories_partial idSvd_ok _ (by simp [ChainCmd.NoModifier]) vs hr
  have hlen : vs.length = 3 := h1
  refine ⟨vs, hr, hlen, ?_⟩
  have h3 := (h2 1 vs[1] (List.getElem?_eq_getElem _)).2.1
  have h4 : vs.getD 1 ⟨[], 0⟩ = vs[1] := by simp [List.getD, List.getElem?_eq_getElem (by omega : 1 < vs.length)]
  rw [h4]
  exact h3

end MP
end QuantiT
