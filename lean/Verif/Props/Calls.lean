import Verif.Model.Calls
import Verif.Spec.Calls
import Verif.Props.SvdError
/-
C129: which decomposition a call of `svd` or `eigh` computes, in C++ and in Python.
-/
namespace QuantiT
namespace OV
open Spec BT BN PY
variable {G 𝕜 : Type} [RCLike 𝕜] [AddCommGroup G] [LinearOrder G]
variable (fac : Bool → Bool → Blk 𝕜 → Blk 𝕜 × Blk 𝕜 × Blk 𝕜) (facE : Bool → Blk ℝ → Blk ℝ × Blk ℝ) (eps : ℝ) (t : BT G 𝕜) (tE : BT G ℝ)

/-- An argument that gives a number of dimensions or of values: a `size_t`, or an `int` that is not negative. -/
inductive Gives : Arg → Nat → Prop
  | size (n : Nat) : Gives (.size n) n
  | int (n : Nat) : n < 2 ^ 31 → Gives (.int n) n

/-- An argument that gives a number: a `double`, a `Scalar`, an `int`. -/
inductive GivesReal : Arg → ℝ → Prop
  | dbl (x : ℝ) : GivesReal (.dbl x) x
  | scalar (x : ℝ) : GivesReal (.scalar x) x
  | int (i : Int) : GivesReal (.int i) i

theorem toSize_gives {a : Arg} {n : Nat} (h : Gives a n) : toSize a = some n := by
  cases h with
  | size => rfl
  | int _ h => simp only [toSize, LA.toU64]; congr 1; omega

theorem toScalar_gives {a : Arg} {x : ℝ} (h : GivesReal a x) : toScalar a = some x := by cases h <;> rfl

/-- **C129.**  Called with the tensor alone, or with flags of the type `BOOL`, the C++ functions decompose the matrices of the last two dimensions with these
flags. -/
theorem C129_batched_partial (s uv : Bool) :
    svdCall fac eps t [] = some (svdMeant fac eps t (.batched (true, true))) ∧
    svdCall fac eps t [.flag s] = some (svdMeant fac eps t (.batched (s, true))) ∧
    svdCall fac eps t [.flag s, .flag uv] = some (svdMeant fac eps t (.batched (s, uv))) ∧
    eighCall facE eps tE [] = some (eighMeant facE eps tE (.batched false)) ∧
    eighCall facE eps tE [.flag s] = some (eighMeant facE eps tE (.batched s)) := by
  refine ⟨rfl, rfl, rfl, rfl, rfl⟩

section
variable {a b mn mx p : Arg} {n lo hi : Nat} {tol pw : ℝ}

theorem resolve_svd1 (ha : Gives a n) : resolve svdSigs [a] = some 1 ∨ resolve svdSigs [a] = some 2 := by
  cases ha
  · exact .inl rfl
  · exact .inr rfl

theorem resolve_svd2 (ha : Gives a n) (hb : GivesReal b tol) : resolve svdSigs [a, b] = some 5 ∨ resolve svdSigs [a, b] = some 6 := by
  cases ha
  · exact .inl (by cases hb <;> rfl)
  · exact .inr (by cases hb <;> rfl)

theorem resolve_svd3 (ha : Gives a n) (hb : GivesReal b tol) (hp : GivesReal p pw) :
    resolve svdSigs [a, b, p] = some 5 ∨ resolve svdSigs [a, b, p] = some 6 := by
  cases ha
  · exact .inl (by cases hb <;> cases hp <;> rfl)
  · exact .inr (by cases hb <;> cases hp <;> rfl)

theorem resolve_svd4 (ha : Gives a n) (hb : GivesReal b tol) (hmn : Gives mn lo) (hmx : Gives mx hi) :
    resolve svdSigs [a, b, mn, mx] = some 3 ∨ resolve svdSigs [a, b, mn, mx] = some 4 := by
  cases ha
  · exact .inl (by cases hb <;> cases hmn <;> cases hmx <;> rfl)
  · exact .inr (by cases hb <;> cases hmn <;> cases hmx <;> rfl)

set_option maxHeartbeats 1000000 in
theorem resolve_svd5 (ha : Gives a n) (hb : GivesReal b tol) (hmn : Gives mn lo) (hmx : Gives mx hi) (hp : GivesReal p pw) :
    resolve svdSigs [a, b, mn, mx, p] = some 3 ∨ resolve svdSigs [a, b, mn, mx, p] = some 4 := by
  cases ha
  · exact .inl (by cases hb <;> cases hmn <;> cases hmx <;> cases hp <;> rfl)
  · exact .inr (by cases hb <;> cases hmn <;> cases hmx <;> cases hp <;> rfl)

set_option maxHeartbeats 1000000 in
theorem resolve_eigh (ha : Gives a n) (hb : GivesReal b tol) (hmn : Gives mn lo) (hmx : Gives mx hi) (hp : GivesReal p pw) :
    resolve eighSigs [a] = some 1 ∧ resolve eighSigs [a, b] = some 3 ∧ resolve eighSigs [a, b, p] = some 3 ∧
      resolve eighSigs [a, b, mn, mx] = some 2 ∧ resolve eighSigs [a, b, mn, mx, p] = some 2 := by
  refine ⟨?_, ?_, ?_, ?_, ?_⟩
  · cases ha <;> rfl
  · cases ha <;> cases hb <;> rfl
  · cases ha <;> cases hb <;> cases hp <;> rfl
  · cases ha <;> cases hb <;> cases hmn <;> cases hmx <;> rfl
  · cases ha <;> cases hb <;> cases hmn <;> cases hmx <;> cases hp <;> rfl

end

/-- **C129.**  Called with a number of dimensions they decompose the tensor split there, with a tolerance also, and with limits also, they drop
the smallest values accordingly; the power is 2 for singular values and 1 for eigenvalues unless it is given. -/
theorem C129_split {a b mn mx p : Arg} {n lo hi : Nat} {tol pw : ℝ} (ha : Gives a n) (hb : GivesReal b tol) (hmn : Gives mn lo) (hmx : Gives mx hi)
    (hp : GivesReal p pw) :
    svdCall fac eps t [a] = some (svdMeant fac eps t (.split n)) ∧
    svdCall fac eps t [a, b] = some (svdMeant fac eps t (.cut n tol 1 sizeMax 2)) ∧
    svdCall fac eps t [a, b, p] = some (svdMeant fac eps t (.cut n tol 1 sizeMax pw)) ∧
    svdCall fac eps t [a, b, mn, mx] = some (svdMeant fac eps t (.cut n tol lo hi 2)) ∧
    svdCall fac eps t [a, b, mn, mx, p] = some (svdMeant fac eps t (.cut n tol lo hi pw)) ∧
    eighCall facE eps tE [a] = some (eighMeant facE eps tE (.split n)) ∧
    eighCall facE eps tE [a, b] = some (eighMeant facE eps tE (.cut n tol 1 sizeMax 1)) ∧
    eighCall facE eps tE [a, b, p] = some (eighMeant facE eps tE (.cut n tol 1 sizeMax pw)) ∧
    eighCall facE eps tE [a, b, mn, mx] = some (eighMeant facE eps tE (.cut n tol lo hi 1)) ∧
    eighCall facE eps tE [a, b, mn, mx, p] = some (eighMeant facE eps tE (.cut n tol lo hi pw)) := by
  have h1 := toSize_gives ha
  have h2 := toScalar_gives hb
  have h3 := toSize_gives hmn
  have h4 := toSize_gives hmx
  have h5 := toScalar_gives hp
  have r1 := resolve_svd1 ha
  have r2 := resolve_svd2 ha hb
  have r3 := resolve_svd3 ha hb hp
  have r4 := resolve_svd4 ha hb hmn hmx
  have r5 := resolve_svd5 ha hb hmn hmx hp
  obtain ⟨q1, q2, q3, q4, q5⟩ := resolve_eigh ha hb hmn hmx hp
  refine ⟨?_, ?_, ?_, ?_, ?_, ?_, ?_, ?_, ?_, ?_⟩
  · rcases r1 with r | r <;> simp [svdCall, r, argOr, h1, svdMeant]
  · rcases r2 with r | r <;> simp [svdCall, r, argOr, h1, h2, svdMeant, sizeMax]
  · rcases r3 with r | r <;> simp [svdCall, r, argOr, h1, h2, h5, svdMeant, sizeMax]
  · rcases r4 with r | r <;> simp [svdCall, r, argOr, h1, h2, h3, h4, svdMeant]
  · rcases r5 with r | r <;> simp [svdCall, r, argOr, h1, h2, h3, h4, h5, svdMeant]
  · simp [eighCall, q1, argOr, h1, eighMeant]
  · simp [eighCall, q2, argOr, h1, h2, eighMeant, sizeMax, eighTolB]
  · simp [eighCall, q3, argOr, h1, h2, h5, eighMeant, sizeMax, eighTolB]
  · simp [eighCall, q4, argOr, h1, h2, h3, h4, eighMeant]
  · simp [eighCall, q5, argOr, h1, h2, h3, h4, h5, eighMeant]

/-- **C129, refuted for flags.**  Called with flags of the type `bool`, the functions take the first for the number of dimensions and the second for the tolerance:
the conversion of a `bool` to an integer is better than that to a `BOOL`. -/
theorem C129_flags_fails (s uv : Bool) :
    svdCall fac eps t [.bool s] = some (svdMeant fac eps t (.split s.toNat)) ∧
    svdCall fac eps t [.bool s, .bool uv] = some (svdMeant fac eps t (.cut s.toNat uv.toNat 1 sizeMax 2)) ∧
    eighCall facE eps tE [.bool s] = some (eighMeant facE eps tE (.split s.toNat)) := by
  refine ⟨rfl, ?_, rfl⟩
  have r : resolve svdSigs [.bool s, .bool uv] = some 6 := rfl
  simp [svdCall, r, argOr, toSize, toScalar, svdMeant, sizeMax]

/-! ### Python -/

/-- A Python number. -/
inductive PyGives : PyArg → ℝ → Prop
  | float (x : ℝ) : PyGives (.float x) x
  | int (i : Int) : PyGives (.int i) i

theorem castPy_gives {a : PyArg} {x : ℝ} (h : PyGives a x) (conv : Bool) : castPy conv .number a = some (.ok (.scalar x)) := by cases h <;> rfl

theorem castPy_size (conv : Bool) {n : Nat} (h : n < 2 ^ 64) : castPy conv .size (.int n) = some (.ok (.size n)) := by
  have : (0 : Int) ≤ n ∧ (n : Int) < 2 ^ 64 := ⟨by omega, by omega⟩
  simp only [castPy, this, and_self, if_true, Int.toNat_natCast]

theorem castPy_int (conv : Bool) {n : Nat} (h : n < 2 ^ 31) : castPy conv .int (.int n) = some (.ok (.int n)) := by
  have : -2 ^ 31 ≤ (n : Int) ∧ (n : Int) < 2 ^ 31 := ⟨by omega, by omega⟩
  simp only [castPy, this, and_self, if_true]

theorem fit_none {conv : Bool} {ps : List PyPar} {c : PyCall} (h : bindArgs ps c = none) : fit conv ps c = none := by
  simp [fit, h]

theorem fit_some {conv : Bool} {ps : List PyPar} {c : PyCall} {os : List PyArg} (h : bindArgs ps c = some os) {xs : List (Except Raised Arg)}
    (hx : List.Forall₂ (fun (p : PyPar × PyArg) x => castPy conv p.1.ty p.2 = some x) (ps.zip os) xs) : fit conv ps c = some (xs.mapM id) := by
  have : ∀ {l : List (PyPar × PyArg)} {xs : List (Except Raised Arg)},
      List.Forall₂ (fun (p : PyPar × PyArg) x => castPy conv p.1.ty p.2 = some x) l xs → l.mapM (fun p => castPy conv p.1.ty p.2) = some xs := by
    intro l xs h
    induction h with
    | nil => rfl
    | cons h1 _ ih => simp [List.mapM_cons, h1, ih]
  simp [fit, h, this hx]

/-- The keywords of a call that are given. -/
def keywords (mn mx : Option Nat) (p : Option PyArg) : List (Kw × PyArg) :=
  (mn.map fun n => (.minSize, .int n)).toList ++ (mx.map fun n => (.maxSize, .int n)).toList ++ (p.map fun a => (.pow, a)).toList

/-- What the overload with a tolerance is called with. -/
theorem dispatch_cut (dp : PyArg) (dq : ℝ) (hdp : PyGives dp dq) (first : List PyPar) (hfirst : ∀ c : PyCall, c.pos ≠ [] → bindArgs first c = none)
    {n : Nat} (hn : n < 2 ^ 31) {b : PyArg} {tol : ℝ} (hb : PyGives b tol) (mn mx : Option Nat) (hmn : ∀ k, mn = some k → k < 2 ^ 64)
    (hmx : ∀ k, mx = some k → k < 2 ^ 64) (p : Option PyArg) (pw : ℝ) (hp : ∀ a, p = some a → PyGives a pw) (hp0 : p = none → pw = dq) :
    dispatch [first, [⟨.split, false, .int, none⟩],
      [⟨.split, false, .int, none⟩, ⟨.tol, false, .number, none⟩, ⟨.minSize, true, .size, some (.int 1)⟩,
        ⟨.maxSize, true, .size, some (.int 18446744073709551615)⟩, ⟨.pow, true, .number, some dp⟩]] ⟨[.int n, b], keywords mn mx p⟩ =
      some (.ok [.int n, .scalar tol, .size (mn.getD 1), .size (mx.getD sizeMax), .scalar pw]) := by
  have h1 : bindArgs first ⟨[.int n, b], keywords mn mx p⟩ = none := hfirst _ (by simp)
  have h2 : bindArgs [⟨.split, false, .int, none⟩] ⟨[.int n, b], keywords mn mx p⟩ = none := by simp [bindArgs]
  have h3 : bindArgs [⟨.split, false, .int, none⟩, ⟨.tol, false, .number, none⟩, ⟨.minSize, true, .size, some (.int 1)⟩,
      ⟨.maxSize, true, .size, some (.int 18446744073709551615)⟩, ⟨.pow, true, .number, some dp⟩] ⟨[.int n, b], keywords mn mx p⟩ =
      some [.int n, b, .int (mn.getD 1), .int (mx.getD sizeMax), p.getD dp] := by
    cases mn <;> cases mx <;> cases p <;> simp [bindArgs, keywords, bound, List.find?, sizeMax]
  have c1 : castPy false .size (.int (mn.getD 1 : Nat)) = some (.ok (.size (mn.getD 1))) := castPy_size _ (by cases mn <;> simp_all)
  have c2 : castPy false .size (.int (mx.getD sizeMax : Nat)) = some (.ok (.size (mx.getD sizeMax))) := castPy_size _ (by cases mx <;> simp_all [sizeMax])
  have c3 : castPy false .number (p.getD dp) = some (.ok (.scalar pw)) := by
    cases p with
    | none => rw [hp0 rfl]; exact castPy_gives hdp _
    | some a => exact castPy_gives (hp a rfl) _
  have f := fit_some (conv := false) h3 (.cons (castPy_int false hn) (.cons (castPy_gives hb false) (.cons c1 (.cons c2 (.cons c3 .nil)))))
  simp only [dispatch, List.findSome?, fit_none h1, fit_none h2, f]
  rfl

/-- **C129.**  In Python the number of dimensions may be given with or without its name, and `svd(t, split, tol, ...)` and `eigh(t, split, tol, ...)` use the limits and the
power that are given, and otherwise keep at least one value and have no upper limit, with power 2 for singular values and 1 for eigenvalues. -/
theorem C129_python_split {n : Nat} (hn : n < 2 ^ 31) {b : PyArg} {tol : ℝ} (hb : PyGives b tol) (mn mx : Option Nat)
    (hmn : ∀ k, mn = some k → k < 2 ^ 64) (hmx : ∀ k, mx = some k → k < 2 ^ 64) (p : Option ℝ) :
    (∀ c ∈ [PyCall.mk [.int n] [], ⟨[], [(.split, .int n)]⟩],
      svdPython fac eps t c = some ((svdMeant fac eps t (.split n)).mapError Raised.cpp) ∧
      eighPython facE eps tE c = some ((eighMeant facE eps tE (.split n)).mapError Raised.cpp)) ∧
    svdPython fac eps t ⟨[.int n, b], keywords mn mx (p.map .float)⟩ =
      some ((svdMeant fac eps t (.cut n tol (mn.getD 1) (mx.getD sizeMax) (p.getD 2))).mapError Raised.cpp) ∧
    eighPython facE eps tE ⟨[.int n, b], keywords mn mx (p.map .float)⟩ =
      some ((eighMeant facE eps tE (.cut n tol (mn.getD 1) (mx.getD sizeMax) (p.getD 1))).mapError Raised.cpp) := by
  have hbs : ∀ c : PyCall, c.pos ≠ [] → bindArgs [⟨.some, true, .bool, some (.bool true)⟩, ⟨.computeUV, true, .bool, some (.bool true)⟩] c = none := by
    intro c hc
    have : 0 < c.pos.length := List.length_pos_iff.2 hc
    simp [bindArgs, hc]
  have hbe : ∀ c : PyCall, c.pos ≠ [] → bindArgs [⟨.upper, true, .bool, some (.bool false)⟩] c = none := by
    intro c hc
    simp [bindArgs, hc]
  have hnum : ∀ q : ℝ, ∀ a, p.map PyArg.float = some a → PyGives a (p.getD q) := by
    intro q a ha
    cases p with
    | none => cases ha
    | some x => cases ha; exact .float x
  refine ⟨?_, ?_, ?_⟩
  · intro c hc
    have hs : dispatch svdPy c = some (.ok [.int n]) ∧ dispatch eighPy c = some (.ok [.int n]) := by
      have h0 : bindArgs [⟨.some, true, .bool, some (.bool true)⟩, ⟨.computeUV, true, .bool, some (.bool true)⟩] c = none ∧
          bindArgs [⟨.upper, true, .bool, some (.bool false)⟩] c = none ∧ bindArgs [⟨.split, false, .int, none⟩] c = some [.int n] := by
        rcases List.mem_cons.1 hc with rfl | hc
        · exact ⟨rfl, rfl, rfl⟩
        · rcases List.mem_cons.1 hc with rfl | hc
          · exact ⟨rfl, rfl, rfl⟩
          · cases hc
      have f := fit_some (conv := false) h0.2.2 (.cons (castPy_int false hn) .nil)
      simp only [dispatch, svdPy, eighPy, List.findSome?, fit_none h0.1, fit_none h0.2.1, f]
      exact ⟨rfl, rfl⟩
    have h := C129_split fac facE eps t tE (.int n hn) (.scalar tol) (.size 1) (.size 1) (.scalar 1)
    simp only [svdPython, eighPython, hs.1, hs.2, h.1, h.2.2.2.2.2.1, Option.map_some, and_self]
  · have hd := dispatch_cut (.int 2) 2 (by exact_mod_cast PyGives.int 2) _ hbs hn hb mn mx hmn hmx (p.map .float) (p.getD 2) (hnum 2) (by simp +contextual)
    have h := C129_split fac facE eps t tE (.int n hn) (.scalar tol) (.size (mn.getD 1)) (.size (mx.getD sizeMax)) (.scalar (p.getD 2))
    have hd' : dispatch svdPy _ = _ := hd
    simp only [svdPython, hd', h.2.2.2.2.1, Option.map_some]
  · have hd := dispatch_cut (.int 1) 1 (by exact_mod_cast PyGives.int 1) _ hbe hn hb mn mx hmn hmx (p.map .float) (p.getD 1) (hnum 1) (by simp +contextual)
    have h := C129_split fac facE eps t tE (.int n hn) (.scalar tol) (.size (mn.getD 1)) (.size (mx.getD sizeMax)) (.scalar (p.getD 1))
    have hd' : dispatch eighPy _ = _ := hd
    simp only [eighPython, hd', h.2.2.2.2.2.2.2.2.2, Option.map_some]

/-- **C129, refuted for the batched decompositions in Python.**  `svd(t)` is not the decomposition of the matrices of the last two dimensions: the tensor is split after its first
dimension and truncated with the tolerance 1.  The flags are that number of dimensions and that tolerance, and `eigh(t)` splits before the first dimension. -/
theorem C129_python_flags_fails (s uv : Bool) :
    svdPython fac eps t ⟨[], []⟩ = some ((svdMeant fac eps t (.cut 1 1 1 sizeMax 2)).mapError Raised.cpp) ∧
    svdPython fac eps t ⟨[], [(.some, .bool s), (.computeUV, .bool uv)]⟩ =
      some ((svdMeant fac eps t (.cut s.toNat uv.toNat 1 sizeMax 2)).mapError Raised.cpp) ∧
    eighPython facE eps tE ⟨[], []⟩ = some ((eighMeant facE eps tE (.split 0)).mapError Raised.cpp) ∧
    eighPython facE eps tE ⟨[], [(.upper, .bool s)]⟩ = some ((eighMeant facE eps tE (.split s.toNat)).mapError Raised.cpp) := by
  have d1 : dispatch svdPy ⟨[], []⟩ = some (.ok [.bool true, .bool true]) := by
    simp [dispatch, svdPy, fit, bindArgs, bound, castPy, List.findSome?, pure, Except.pure, bind, Except.bind]
  have d2 : dispatch svdPy ⟨[], [(.some, .bool s), (.computeUV, .bool uv)]⟩ = some (.ok [.bool s, .bool uv]) := by
    simp [dispatch, svdPy, fit, bindArgs, bound, castPy, List.findSome?, List.find?, pure, Except.pure, bind, Except.bind]
  have d3 : dispatch eighPy ⟨[], []⟩ = some (.ok [.bool false]) := by
    simp [dispatch, eighPy, fit, bindArgs, bound, castPy, List.findSome?, pure, Except.pure, bind, Except.bind]
  have d4 : dispatch eighPy ⟨[], [(.upper, .bool s)]⟩ = some (.ok [.bool s]) := by
    simp [dispatch, eighPy, fit, bindArgs, bound, castPy, List.findSome?, List.find?, pure, Except.pure, bind, Except.bind]
  refine ⟨?_, ?_, ?_, ?_⟩
  · simp only [svdPython, d1, (C129_flags_fails fac facE eps t tE true true).2.1, Option.map_some]
    simp
  · simp only [svdPython, d2, (C129_flags_fails fac facE eps t tE s uv).2.1, Option.map_some]
  · simp only [eighPython, d3, (C129_flags_fails fac facE eps t tE false true).2.2, Option.map_some]
    simp
  · simp only [eighPython, d4, (C129_flags_fails fac facE eps t tE s uv).2.2, Option.map_some]

theorem dispatch_none {ovs : List (List PyPar)} {c : PyCall} (h : ∀ ps ∈ ovs, ∀ conv, fit conv ps c = none) : dispatch ovs c = none := by
  have : ∀ conv, ovs.findSome? (fit conv · c) = none := fun conv => List.findSome?_eq_none_iff.2 fun ps hps => h ps hps conv
  simp only [dispatch, this]

theorem refused_kw {c : PyCall} {n m : Nat} {name : Kw} (hname : name ∈ [Kw.minSize, .maxSize, .pow]) (hc : c = ⟨[.int n], [(name, .int m)]⟩) :
    dispatch svdPy c = none ∧ dispatch eighPy c = none := by
  subst hc
  simp only [List.mem_cons, List.not_mem_nil, or_false] at hname
  constructor
  · refine dispatch_none fun ps hps conv => fit_none ?_
    simp only [svdPy, List.mem_cons, List.not_mem_nil, or_false] at hps
    rcases hps with rfl | rfl | rfl <;> rcases hname with rfl | rfl | rfl <;> rfl
  · refine dispatch_none fun ps hps conv => fit_none ?_
    simp only [eighPy, List.mem_cons, List.not_mem_nil, or_false] at hps
    rcases hps with rfl | rfl | rfl <;> rcases hname with rfl | rfl | rfl <;> rfl

theorem refused_float (x : ℝ) : dispatch svdPy ⟨[.float x], []⟩ = none ∧ dispatch eighPy ⟨[.float x], []⟩ = none := by
  constructor
  · refine dispatch_none fun ps hps conv => ?_
    simp only [svdPy, List.mem_cons, List.not_mem_nil, or_false] at hps
    rcases hps with rfl | rfl | rfl
    · exact fit_none rfl
    · cases conv <;> rfl
    · exact fit_none rfl
  · refine dispatch_none fun ps hps conv => ?_
    simp only [eighPy, List.mem_cons, List.not_mem_nil, or_false] at hps
    rcases hps with rfl | rfl | rfl
    · exact fit_none rfl
    · cases conv <;> rfl
    · exact fit_none rfl

theorem bind_other (dp : PyArg) (n : Nat) : bindArgs [⟨.split, false, .int, none⟩, ⟨.tol, false, .number, none⟩, ⟨.minSize, true, .size, some (.int 1)⟩,
      ⟨.maxSize, true, .size, some (.int 18446744073709551615)⟩, ⟨.pow, true, .number, some dp⟩] ⟨[.int n, .other], []⟩ =
    some [.int n, .other, .int (1 : Nat), .int (18446744073709551615 : Nat), dp] := by simp [bindArgs, bound]

theorem cast_other : castPy false .number .other = some (.error .runtimeError) := rfl
theorem cast_max : castPy false .size (.int (18446744073709551615 : Nat)) = some (.ok (.size 18446744073709551615)) := castPy_size false (by norm_num)
theorem cast_one : castPy false .size (.int (1 : Nat)) = some (.ok (.size 1)) := castPy_size false (by norm_num)

theorem fit_other (dp : PyArg) (dq : ℝ) (hdp : PyGives dp dq) {n : Nat} (hn : n < 2 ^ 31) : fit false [⟨.split, false, .int, none⟩, ⟨.tol, false, .number, none⟩, ⟨.minSize, true, .size, some (.int 1)⟩,
      ⟨.maxSize, true, .size, some (.int 18446744073709551615)⟩, ⟨.pow, true, .number, some dp⟩] ⟨[.int n, .other], []⟩ =
    some ([.ok (.int n), .error .runtimeError, .ok (.size 1), .ok (.size 18446744073709551615), .ok (.scalar dq)].mapM id) :=
  fit_some (conv := false) (bind_other dp n) (.cons (castPy_int false hn) (.cons cast_other (.cons cast_one (.cons cast_max (.cons (castPy_gives hdp false) .nil)))))

theorem mapM_other (a b c d : Arg) : [Except.ok a, .error Raised.runtimeError, .ok b, .ok c, .ok d].mapM id = .error .runtimeError := rfl

theorem fit_refused (dp : PyArg) (dq : ℝ) (hdp : PyGives dp dq) {n : Nat} (hn : n < 2 ^ 31) : fit false [⟨.split, false, .int, none⟩, ⟨.tol, false, .number, none⟩, ⟨.minSize, true, .size, some (.int 1)⟩,
      ⟨.maxSize, true, .size, some (.int 18446744073709551615)⟩, ⟨.pow, true, .number, some dp⟩] ⟨[.int n, .other], []⟩ =
    some (.error .runtimeError) := (fit_other dp dq hdp hn).trans (congrArg some (mapM_other _ _ _ _))

theorem bind_first (first : List PyPar) (hfirst : ∀ c : PyCall, c.pos ≠ [] → bindArgs first c = none) (n : Nat) :
    bindArgs first ⟨[.int n, .other], []⟩ = none := hfirst _ (by simp)

theorem bind_second (n : Nat) : bindArgs [⟨.split, false, .int, none⟩] ⟨[.int n, .other], []⟩ = none := rfl

theorem dispatch_third (A B D : List PyPar) (c : PyCall) (r : Except Raised (List Arg)) (h1 : fit false A c = none) (h2 : fit false B c = none)
    (h3 : fit false D c = some r) : dispatch [A, B, D] c = some r := by
  unfold dispatch
  rw [List.findSome?_cons, h1, List.findSome?_cons, h2, List.findSome?_cons, h3]

theorem refused_other (dp : PyArg) (dq : ℝ) (hdp : PyGives dp dq) (first : List PyPar) (hfirst : ∀ c : PyCall, c.pos ≠ [] → bindArgs first c = none)
    {n : Nat} (hn : n < 2 ^ 31) : dispatch [first, [⟨.split, false, .int, none⟩], [⟨.split, false, .int, none⟩, ⟨.tol, false, .number, none⟩, ⟨.minSize, true, .size, some (.int 1)⟩,
      ⟨.maxSize, true, .size, some (.int 18446744073709551615)⟩, ⟨.pow, true, .number, some dp⟩]] ⟨[.int n, .other], []⟩ = some (.error .runtimeError) :=
  dispatch_third _ _ _ _ _ (fit_none (bind_first first hfirst n)) (fit_none (bind_second n)) (fit_refused dp dq hdp hn)

theorem first_svd (c : PyCall) (hc : c.pos ≠ []) :
    bindArgs [⟨.some, true, .bool, some (.bool true)⟩, ⟨.computeUV, true, .bool, some (.bool true)⟩] c = none := by
  simp [bindArgs, hc]

theorem first_eigh (c : PyCall) (hc : c.pos ≠ []) : bindArgs [⟨.upper, true, .bool, some (.bool false)⟩] c = none := by
  simp [bindArgs, hc]

/-- **C129.**  Calls that fit no overload raise `TypeError`: limits without a tolerance, a number of dimensions that is not an integer; a tolerance that is not a number
raises `RuntimeError`. -/
theorem C129_python_refused {n m : Nat} (hn : n < 2 ^ 31) (x : ℝ) (name : Kw) (hname : name ∈ [Kw.minSize, .maxSize, .pow]) :
    svdPython fac eps t ⟨[.int n], [(name, .int m)]⟩ = some (.error .typeError) ∧
    eighPython facE eps tE ⟨[.int n], [(name, .int m)]⟩ = some (.error .typeError) ∧
    svdPython fac eps t ⟨[.float x], []⟩ = some (.error .typeError) ∧
    eighPython facE eps tE ⟨[.float x], []⟩ = some (.error .typeError) ∧
    svdPython fac eps t ⟨[.int n, .other], []⟩ = some (.error .runtimeError) ∧
    eighPython facE eps tE ⟨[.int n, .other], []⟩ = some (.error .runtimeError) := by
  have h1 : dispatch svdPy ⟨[.int n, .other], []⟩ = some (.error .runtimeError) := refused_other (.int 2) ((2 : Int) : ℝ) (.int 2) _ first_svd hn
  have h2 : dispatch eighPy ⟨[.int n, .other], []⟩ = some (.error .runtimeError) := refused_other (.int 1) ((1 : Int) : ℝ) (.int 1) _ first_eigh hn
  obtain ⟨k1, k2⟩ := refused_kw (n := n) (m := m) hname rfl
  obtain ⟨k3, k4⟩ := refused_float x
  refine ⟨?_, ?_, ?_, ?_, ?_, ?_⟩
  · rw [svdPython, k1]
  · rw [eighPython, k2]
  · rw [svdPython, k3]
  · rw [eighPython, k4]
  · rw [svdPython, h1]
  · rw [eighPython, h2]

/-- **C129, refuted for the batched decompositions in Python: an example.**  For a tensor of three dimensions `svd(t)` in C++ gives the singular values of each matrix, in a tensor of
two dimensions; in Python it gives the values of the tensor split after its first dimension, in a tensor of one dimension. -/
theorem C129_python_batch_fails : ∃ (fac : Bool → Bool → Blk ℝ → Blk ℝ × Blk ℝ × Blk ℝ) (t : BT ℤ ℝ), (∀ s uv, DenseSvd (fac s uv)) ∧
    Conserving t.shape t.rule t.blocks ∧ ∀ eps, ∃ u d v u' d' v', svdCall fac eps t [] = some (.ok (u, d, v)) ∧
      svdPython fac eps t ⟨[], []⟩ = some (.ok (u', d', v')) ∧ d.shape.length = 2 ∧ d'.shape.length = 1 := by
  obtain ⟨f, hf⟩ := LA.denseSvd_exists ℝ
  refine ⟨fun _ _ => f, exBatch ℝ, fun _ _ => hf, exBatch_conserving ℝ, fun eps => ?_⟩
  have hz : ∀ d ∈ (exBatch ℝ).shape, 0 < dimSize d := by unfold exBatch; simp [dimSize]
  obtain ⟨u, d, v, r, h1, _, h2, _⟩ := C66_orthonormal_batch f hf.sizes hf.ortho (exBatch ℝ) [[(1, 0), (2, 0)]] [(2, 0)] [(2, 0)] rfl (exBatch_conserving ℝ) hz
  obtain ⟨_, _, _, b, σ, _, _, _, h4, h5⟩ := C68_error_split f hf (exBatch ℝ) [[(1, 0), (2, 0)]] [[(2, 0)], [(2, 0)]] rfl (by simp) (by simp)
    (exBatch_conserving ℝ) hz (by simp [exBatch]) (by norm_num [dimSize]) eps 1 zero_le_one 1 sizeMax le_rfl (fun x => x ^ (2 : ℝ))
    (fun x hx => Real.rpow_nonneg hx _)
  obtain ⟨u', d', v', b', thr, h6, h7, _⟩ := h5 (h4 ⟨[2, 1, 1], by unfold InRange; exact .cons (by decide) (.cons (by decide) (.cons (by decide) .nil)),
    by simp [entry, locateAll, locate, exBatch, lookup]⟩)
  refine ⟨u, d, v, u', d', v', ?_, ?_, ?_, ?_⟩
  · rw [(C129_batched_partial _ (fun _ b => (b, b)) eps (exBatch ℝ) (exBatch ℝ) true true).1]
    exact congrArg some h1
  · rw [(C129_python_flags_fails _ (fun _ b => (b, b)) eps (exBatch ℝ) (exBatch ℝ) true true).1]
    exact congrArg (fun r => some (Except.mapError Raised.cpp r)) h6
  · rw [h2]; simp [neutralised]
  · rw [h7]; rfl

/-- The hypotheses are met: `svd(t, 2, 1e-3, min_size=2, max_size=100)`, the call of the library's own examples. -/
example : svdPython fac eps t ⟨[.int (2 : Nat), .float 0.001], [(.minSize, .int (2 : Nat)), (.maxSize, .int (100 : Nat))]⟩ =
    some ((svdMeant fac eps t (.cut 2 0.001 2 100 2)).mapError Raised.cpp) :=
  (C129_python_split fac facE eps t tE (n := 2) (by norm_num) (.float 0.001) (some 2) (some 100) (by simp) (by simp) none).2.1

/-- `svd(t, 1, tol)` in C++ with an `int` and a `double`, as in the library's tests. -/
example : svdCall fac eps t [.int (1 : Nat), .dbl 0.01] = some (svdMeant fac eps t (.cut 1 0.01 1 sizeMax 2)) :=
  (C129_split fac facE eps t tE (.int 1 (by norm_num)) (.dbl 0.01) (.size 1) (.size 1) (.scalar 1)).2.1

end OV
end QuantiT
