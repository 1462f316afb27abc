import Verif.Model.Convert
import Verif.Spec.Convert
import Verif.Props.Types
/-
C118: conversions of the element type, and what a DMRG run does to the type of its arguments.
-/
namespace QuantiT
namespace TY
open BT Spec
variable {G : Type} [AddCommGroup G] [DecidableEq G]

theorem cast_value (a : DT) (z : ℂ) : ValueOf a (cast a z) := by
  cases a with
  | int l =>
    show ∃ n : ℤ, ((trunc z.re : ℝ) : ℂ) = n
    unfold trunc
    split_ifs
    · exact ⟨⌊z.re⌋, by simp⟩
    · exact ⟨⌈z.re⌉, by simp⟩
  | real l => simp [cast, ValueOf]
  | complex l => trivial

theorem toT_entry (dflt : Bool) (a : DT) (x : TT G) (e : List Nat) :
    entry (toT dflt (some a) x).t.shape (toT dflt (some a) x).t.blocks e = cast a (entry x.t.shape x.t.blocks e) :=
  entry_mapBlocks _ (cast_zero a) _ _

/-- **C118.**  `to(type)` converts every entry, keeps shape and rule, and what it returns is of that type throughout. -/
theorem C118_to (dflt : Bool) (a : DT) (x : TT G) :
    Retyped (cast a) x (toT dflt (some a) x) ∧ OfType a (toT dflt (some a) x) := by
  refine ⟨⟨rfl, rfl, toT_entry dflt a x⟩, ?_, fun _ _ _ => rfl, fun e _ => ?_⟩
  · unfold toT
    cases x.t.blocks <;> rfl
  · rw [toT_entry]
    exact cast_value a _

/-- **C118.**  It keeps the entries exactly when the type holds all of them. -/
theorem C118_kept (dflt : Bool) (a : DT) (x : TT G) :
    Retyped id x (toT dflt (some a) x) ↔ ∀ e, ValueOf a (entry x.t.shape x.t.blocks e) := by
  constructor
  · intro h e
    exact (cast_eq a _).1 ((toT_entry dflt a x e).symm.trans (h.entries e))
  · intro h
    exact ⟨rfl, rfl, fun e => (toT_entry dflt a x e).trans ((cast_eq a _).2 (h e))⟩

theorem widens_value {a b : DT} (h : Widens a b) {z : ℂ} (hz : ValueOf a z) : ValueOf b z := by
  cases a <;> cases b <;> simp_all [Widens, ValueOf]
  obtain ⟨n, rfl⟩ := hz
  simp

theorem same_toT (dflt : Bool) {a : DT} {x : TT G} (hd : x.opt = a) (hs : ∀ k b, (k, b) ∈ x.t.blocks → x.ty k = a)
    (hv : ∀ e, ValueOf a (entry x.t.shape x.t.blocks e)) : SameTyped x (toT dflt (some a) x) := by
  refine ⟨(C118_kept dflt a x).2 hv, (C118_to dflt a x).2.declared.trans hd.symm, ?_, fun k b hk => (hs k b hk).symm⟩
  unfold toT mapBlocks
  rw [List.map_map]
  rfl

/-- **C118.**  Converting to a type that holds more and back gives the tensor back. -/
theorem C118_round_trip (dflt : Bool) (a b : DT) (x : TT G) (hab : Widens a b) (hd : x.opt = a) (hs : ∀ k v, (k, v) ∈ x.t.blocks → x.ty k = a)
    (hv : ∀ e, ValueOf a (entry x.t.shape x.t.blocks e)) : SameTyped x (toT dflt (some a) (toT dflt (some b) x)) := by
  have h1 := (C118_kept dflt b x).2 fun e => widens_value hab (hv e)
  refine ⟨⟨rfl, rfl, fun e => ?_⟩, (C118_to dflt a _).2.declared.trans hd.symm, ?_, fun k v hk => (hs k v hk).symm⟩
  · rw [toT_entry, h1.entries]
    exact (cast_eq a _).2 (hv e)
  · unfold toT mapBlocks
    simp only [List.map_map]
    rfl

omit [AddCommGroup G] [DecidableEq G] in
/-- **C118.**  Without a type in its options `to` keeps a tensor that stores a block and declares the type of it. -/
theorem C118_no_type_partial (dflt : Bool) (x : TT G) (hne : x.t.blocks ≠ []) (hd : ∀ b, x.t.blocks.head? = some b → x.ty b.1 = x.opt) :
    SameTyped x (toT dflt none x) := by
  refine ⟨⟨rfl, rfl, fun _ => rfl⟩, ?_, rfl, fun _ _ _ => rfl⟩
  unfold toT
  cases h : x.t.blocks with
  | nil => exact absurd h hne
  | cons b l => exact hd b (by rw [h]; rfl)

omit [AddCommGroup G] [DecidableEq G] in
/-- **C118** (fails): a tensor without blocks takes torch's default type when it is converted to options without a type, say to another
device. -/
theorem C118_no_type_fails (dflt : Bool) (x : TT G) (he : x.t.blocks = []) : (toT dflt none x).opt = .real dflt := by
  unfold toT
  rw [he]
  rfl

omit [AddCommGroup G] [DecidableEq G] in
/-- **C118** (fails): assigning to `dtype` in Python changes nothing. -/
theorem C118_python_fails (dflt : Bool) (x : TT G) (a : DT) (ha : a ≠ x.opt) : (setDtypePy dflt x a).opt ≠ a := fun h => ha h.symm

omit [AddCommGroup G] [DecidableEq G] in
theorem toT_none_some (dflt : Bool) (a : DT) (x : TT G) : toT dflt (some a) (toT dflt none x) = toT dflt (some a) x := by
  unfold toT
  rfl

/-- **C118.**  Whatever a DMRG run does, and whether it returns or throws, the Hamiltonian is afterwards converted to the type its first tensor
declares, and so is the state the run made to the type the first tensor of the state declared before. -/
theorem C118_dmrg_exact {A : Type} (dflt : Bool) (run : List (TT G) → List (TT G) → Res A × List (TT G)) (ham state : List (TT G)) (h s : TT G)
    (hh : ham.head? = some h) (hs : state.head? = some s) :
    ∃ r state' ham' made, guarded dflt run ham state = some (r, ham', state') ∧ run (chainTo dflt none ham) (chainTo dflt none state) = (r, made) ∧
      List.Forall₂ (Retyped (cast h.opt)) ham ham' ∧ List.Forall₂ (Retyped (cast s.opt)) made state' := by
  obtain ⟨hs', rfl⟩ : ∃ l, ham = h :: l := by
    cases ham with
    | nil => simp at hh
    | cons a l => simp at hh; exact ⟨l, by rw [hh]⟩
  obtain ⟨ss', rfl⟩ : ∃ l, state = s :: l := by
    cases state with
    | nil => simp at hs
    | cons a l => simp at hs; exact ⟨l, by rw [hs]⟩
  refine ⟨_, _, _, (run (chainTo dflt none (h :: hs')) (chainTo dflt none (s :: ss'))).2, rfl, rfl, ?_, ?_⟩
  · unfold chainTo
    rw [List.map_map, List.forall₂_map_right_iff, List.forall₂_same]
    intro x _
    rw [Function.comp_apply, toT_none_some]
    exact (C118_to dflt h.opt x).1
  · unfold chainTo
    rw [List.forall₂_map_right_iff, List.forall₂_same]
    exact fun x _ => (C118_to dflt s.opt x).1

/-- **C118** (partial: for chains whose tensors all have one type).  A DMRG run gives back the Hamiltonian as it was, and the state it made if that is
of the type of the state it got. -/
theorem C118_dmrg_partial {A : Type} (dflt : Bool) (run : List (TT G) → List (TT G) → Res A × List (TT G)) (ham state : List (TT G)) (a b : DT)
    (hne : ham ≠ []) (sne : state ≠ []) (ha : ∀ x ∈ ham, x.opt = a ∧ (∀ k v, (k, v) ∈ x.t.blocks → x.ty k = a) ∧ ∀ e, ValueOf a (entry x.t.shape x.t.blocks e))
    (hb : ∀ x ∈ state, x.opt = b)
    (hm : ∀ x ∈ (run (chainTo dflt none ham) (chainTo dflt none state)).2,
      x.opt = b ∧ (∀ k v, (k, v) ∈ x.t.blocks → x.ty k = b) ∧ ∀ e, ValueOf b (entry x.t.shape x.t.blocks e)) :
    ∃ ham' state', guarded dflt run ham state = some ((run (chainTo dflt none ham) (chainTo dflt none state)).1, ham', state') ∧
      List.Forall₂ SameTyped ham ham' ∧ List.Forall₂ SameTyped (run (chainTo dflt none ham) (chainTo dflt none state)).2 state' := by
  obtain ⟨h, hs, rfl⟩ := List.exists_cons_of_ne_nil hne
  obtain ⟨s, ss, rfl⟩ := List.exists_cons_of_ne_nil sne
  refine ⟨_, _, rfl, ?_, ?_⟩
  · rw [(ha h (by simp)).1]
    unfold chainTo
    rw [List.map_map, List.forall₂_map_right_iff, List.forall₂_same]
    intro x hx
    rw [Function.comp_apply, toT_none_some]
    obtain ⟨h1, h2, h3⟩ := ha x hx
    exact same_toT dflt h1 h2 h3
  · rw [hb s (by simp)]
    unfold chainTo at *
    rw [List.forall₂_map_right_iff, List.forall₂_same]
    intro x hx
    obtain ⟨h1, h2, h3⟩ := hm x hx
    exact same_toT dflt h1 h2 h3

/-- **C118** (fails): if the first tensor of the Hamiltonian declares a real type, every call of `dmrg` strips the imaginary part off the
others, even if it then throws. -/
theorem C118_dmrg_fails {A : Type} (dflt : Bool) (run : List (TT G) → List (TT G) → Res A × List (TT G)) (ham state : List (TT G)) (h s : TT G)
    (hh : ham.head? = some h) (hs : state.head? = some s) (long : Bool) (hr : h.opt = .real long) (i : Nat) (x : TT G) (hx : ham[i]? = some x)
    (e : List Nat) (hi : (entry x.t.shape x.t.blocks e).im ≠ 0) :
    ∃ r ham' state' y, guarded dflt run ham state = some (r, ham', state') ∧ ham'[i]? = some y ∧ (entry y.t.shape y.t.blocks e).im = 0 ∧ ¬ SameTyped x y := by
  obtain ⟨r, state', ham', made, h1, -, h2, -⟩ := C118_dmrg_exact dflt run ham state h s hh hs
  rw [hr] at h2
  have hlen := h2.length_eq
  have hil := (List.getElem?_eq_some_iff.1 hx).1
  obtain ⟨y, hy⟩ : ∃ y, ham'[i]? = some y := ⟨_, List.getElem?_eq_getElem (by omega)⟩
  have hc : Retyped (cast (.real long)) x y := by
    have := List.forall₂_iff_get.1 h2
    have := this.2 i hil (by omega)
    rw [List.getElem?_eq_some_iff] at hx hy
    obtain ⟨_, hx⟩ := hx
    obtain ⟨_, hy⟩ := hy
    simpa [hx, hy] using this
  have h0 : (entry y.t.shape y.t.blocks e).im = 0 := by rw [hc.entries]; simp [cast]
  refine ⟨r, ham', state', y, h1, hy, h0, fun hsame => hi ?_⟩
  rw [hsame.value.entries] at h0
  exact h0

/-- A number as a tensor without dimensions. -/
noncomputable def oneT (a : DT) (z : ℂ) : TT Int := ⟨⟨[], 0, [([], ⟨[], fun _ => z⟩)]⟩, a, fun _ => a⟩

theorem oneT_entry (a : DT) (z : ℂ) : ∀ e, entry (oneT a z).t.shape (oneT a z).t.blocks e = if e = [] then z else 0
  | [] => rfl
  | _ :: _ => rfl

/-- The cases occur: a Hamiltonian of a real and a complex tensor, and a run that throws at once. -/
example : ∃ (ham' state' : List (TT Int)) (y : TT Int), guarded true (fun _ s => ((Res.throw .invalidArgument : Res Unit), s))
      [oneT (.real true) 1, oneT (.complex true) Complex.I] [oneT (.real true) 1] = some (Res.throw .invalidArgument, ham', state') ∧
    ham'[1]? = some y ∧ (entry y.t.shape y.t.blocks []).im = 0 ∧ ¬ SameTyped (oneT (.complex true) Complex.I) y := by
  obtain ⟨r, ham', state', y, h1, h2, h3, h4⟩ := C118_dmrg_fails true (fun _ s => ((Res.throw .invalidArgument : Res Unit), s))
    [oneT (.real true) 1, oneT (.complex true) Complex.I] [oneT (.real true) 1] _ _ rfl rfl true rfl 1 _ rfl [] (by rw [oneT_entry]; simp)
  refine ⟨ham', state', y, ?_, h2, h3, h4⟩
  have : r = Res.throw .invalidArgument := by
    unfold guarded at h1
    simp at h1
    exact h1.1.symm
  rw [h1, this]

/-- The hypotheses of `C118_dmrg_partial` are met. -/
example (z : ℝ) : ∃ ham' state', guarded true (fun _ s => ((.ok () : Res Unit), s))
      [oneT (.real true) z, oneT (.real true) 2] [oneT (.complex true) Complex.I] = some (.ok (), ham', state') ∧
    List.Forall₂ SameTyped [oneT (.real true) z, oneT (.real true) 2] ham' := by
  obtain ⟨ham', state', h1, h2, -⟩ := C118_dmrg_partial true (fun _ s => ((.ok () : Res Unit), s))
    [oneT (.real true) z, oneT (.real true) 2] [oneT (.complex true) Complex.I] (.real true) (.complex true) (by simp) (by simp)
    (by
      intro x hx
      simp at hx
      rcases hx with rfl | rfl
      all_goals
        refine ⟨rfl, fun _ _ _ => rfl, fun e => ?_⟩
        rw [oneT_entry]
        split_ifs <;> simp [ValueOf])
    (by simp [oneT])
    (by
      intro x hx
      simp [chainTo] at hx
      subst hx
      exact ⟨rfl, fun _ _ _ => rfl, fun e => trivial⟩)
  exact ⟨ham', state', h1, h2⟩
end TY
end QuantiT
