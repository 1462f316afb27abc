import Verif.Model.BlockCut
import Verif.Model.EighSplit
import Verif.Model.Operators
import Verif.Model.Truncate
/-
Which function a call of `svd` or `eigh` on a block tensor runs: the overloads of include/blockTensor/LinearAlgebra.h as a C++ compiler chooses
among them, and those of python_binding/linalg.cpp as pybind11 does.

The overloads for `torch::Tensor` do not accept a block tensor and are left out.  A tensor is real for `eigh`.
-/
namespace QuantiT
namespace OV
open BT BN PY
variable {G 𝕜 : Type}

/-! ### Overloads in C++ -/

/-- An argument after the tensor with its static type: `bool`, `BOOL` (LinearAlgebra.h:30-35), `int`, `size_t`, `double`, `btensor::Scalar`. -/
inductive Arg where
  | bool (b : Bool)
  | flag (b : Bool)
  | int (i : Int)
  | size (n : Nat)
  | dbl (x : ℝ)
  | scalar (x : ℝ)

/-- The types of the parameters after the tensor. -/
inductive Par where
  | flag
  | int
  | size
  | scalar
  deriving DecidableEq

/-- The rank of the implicit conversion of an argument to a parameter (C++ [over.ics.rank]): 0 exact match, 1 promotion, 2 standard conversion, 3
conversion by a constructor or a conversion function, `none` if there is no conversion.  `BOOL(bool)` accepts what converts to `bool`, LinearAlgebra.h:33,
and `operator bool` (34) makes a `BOOL` a number; a `Scalar` is made of a number but not the other way. -/
def rank : Arg → Par → Option Nat
  | .flag _, .flag => some 0
  | .scalar _, .flag => none
  | _, .flag => some 3
  | .int _, .int => some 0
  | .bool _, .int => some 1
  | .flag _, .int => some 3
  | .scalar _, .int => none
  | _, .int => some 2
  | .size _, .size => some 0
  | .flag _, .size => some 3
  | .scalar _, .size => none
  | _, .size => some 2
  | .scalar _, .scalar => some 0
  | .flag _, .scalar => none
  | _, .scalar => some 3

/-- The parameters of an overload after the tensor and how many have no default value. -/
structure Sig where
  params : List Par
  required : Nat

/-- The ranks of the conversions of all arguments, if the overload can be called with them (C++ [over.match.viable]). -/
def Sig.ranks (s : Sig) (args : List Arg) : Option (List Nat) :=
  if s.required ≤ args.length ∧ args.length ≤ s.params.length then (args.zip s.params).mapM fun p => rank p.1 p.2 else none

/-- No conversion is worse and one is better (C++ [over.match.best]).  Conversions by constructors of different classes are not better or worse
than each other. -/
def better (a b : List Nat) : Bool := (a.zip b).all (fun p => decide (p.1 ≤ p.2)) && (a.zip b).any (fun p => decide (p.1 < p.2))

/-- The number of the overload that is called; `none`: the call does not compile, because no overload fits or none is the best. -/
def resolve (sigs : List Sig) (args : List Arg) : Option Nat :=
  let rs := sigs.map (·.ranks args)
  (List.range rs.length).find? fun i => match rs[i]? with
    | some (some a) => (List.range rs.length).all fun j => decide (j = i) || match rs[j]? with
      | some (some b) => better a b
      | _ => true
    | _ => false

/-- An argument converted to `BOOL`. -/
def toFlag : Arg → Option Bool
  | .bool b => some b
  | .flag b => some b
  | .int i => some (decide (i ≠ 0))
  | .size n => some (decide (n ≠ 0))
  | _ => none

/-- An argument converted to `size_t`, or to `int` and then to `size_t` (LinearAlgebra.h:94, 124, 149).  Only the overloads with `size_t` are chosen
for a `size_t`.  Numbers that are not integers are not modelled. -/
def toSize : Arg → Option Nat
  | .bool b => some b.toNat
  | .flag b => some b.toNat
  | .int i => some (LA.toU64 i)
  | .size n => some n
  | _ => none

/-- An argument converted to `Scalar`, which has no constructor for `size_t`: that does not compile. -/
noncomputable def toScalar : Arg → Option ℝ
  | .bool b => some (b.toNat : ℝ)
  | .int i => some (i : ℝ)
  | .dbl x => some x
  | .scalar x => some x
  | _ => none

/-- The argument at a position, converted, or the default value. -/
def argOr {α : Type} (conv : Arg → Option α) (args : List Arg) (i : Nat) (dflt : α) : Option α :=
  match args[i]? with
  | none => some dflt
  | some a => conv a

/-- The overloads of `svd`, LinearAlgebra.h:74, 87, 92, 115, 121, 142, 146. -/
def svdSigs : List Sig :=
  [⟨[.flag, .flag], 0⟩, ⟨[.size], 1⟩, ⟨[.int], 1⟩, ⟨[.size, .scalar, .size, .size, .scalar], 4⟩, ⟨[.int, .scalar, .size, .size, .scalar], 4⟩,
    ⟨[.size, .scalar, .scalar], 2⟩, ⟨[.int, .scalar, .scalar], 2⟩]

/-- `svd(t, args...)` in C++; `none` if it does not compile.  `fac some compute_uv` is `torch::svd` of a matrix with these flags. -/
noncomputable def svdCall [RCLike 𝕜] [AddCommGroup G] [LinearOrder G] (fac : Bool → Bool → Blk 𝕜 → Blk 𝕜 × Blk 𝕜 × Blk 𝕜) (eps : ℝ) (t : BT G 𝕜)
    (args : List Arg) : Option (Res (BT G 𝕜 × BT G 𝕜 × BT G 𝕜)) :=
  match resolve svdSigs args with
  -- sources/btensor_linalg.cpp:390
  | some 0 => do
    let s ← argOr toFlag args 0 true
    let uv ← argOr toFlag args 1 true
    some (svdFull (fac s uv) t s)
  -- sources/btensor_linalg.cpp:503
  | some 1 | some 2 => do
    let n ← argOr toSize args 0 0
    some (svdSplit (fac true true) t n)
  -- sources/btensor_linalg.cpp:805
  | some 3 | some 4 => do
    let n ← argOr toSize args 0 0
    let tol ← argOr toScalar args 1 0
    let mn ← argOr toSize args 2 0
    let mx ← argOr toSize args 3 0
    let p ← argOr toScalar args 4 2
    some (svdCutB (fac true true) eps t n tol mn mx fun x => x ^ p)
  -- sources/btensor_linalg.cpp:810
  | some 5 | some 6 => do
    let n ← argOr toSize args 0 0
    let tol ← argOr toScalar args 1 0
    let p ← argOr toScalar args 2 2
    some (svdCutB (fac true true) eps t n tol 1 (2 ^ 64 - 1) fun x => x ^ p)
  | _ => none

/-- The overloads of `eigh`, LinearAlgebra.h:159, 167, 180, 192. -/
def eighSigs : List Sig := [⟨[.flag], 0⟩, ⟨[.size], 1⟩, ⟨[.size, .scalar, .size, .size, .scalar], 4⟩, ⟨[.size, .scalar, .scalar], 2⟩]

/-- `eigh(t, args...)` in C++; `fac upper` is `torch::linalg::eigh` of a matrix with this flag (sources/btensor_linalg.cpp:354). -/
noncomputable def eighCall [AddCommGroup G] [LinearOrder G] (fac : Bool → Blk ℝ → Blk ℝ × Blk ℝ) (eps : ℝ) (t : BT G ℝ) (args : List Arg) :
    Option (Res (BT G ℝ × BT G ℝ)) :=
  match resolve eighSigs args with
  -- sources/btensor_linalg.cpp:294
  | some 0 => do
    let u ← argOr toFlag args 0 false
    some (eighFull (fac u) t)
  -- sources/btensor_linalg.cpp:369
  | some 1 => do
    let n ← argOr toSize args 0 0
    some (eighSplit (fac false) t n)
  -- sources/btensor_linalg.cpp:816
  | some 2 => do
    let n ← argOr toSize args 0 0
    let tol ← argOr toScalar args 1 0
    let mn ← argOr toSize args 2 0
    let mx ← argOr toSize args 3 0
    let p ← argOr toScalar args 4 1
    some (eighCutB (fac false) eps t n tol mn mx fun x => x ^ p)
  -- sources/btensor_linalg.cpp:824
  | some 3 => do
    let n ← argOr toSize args 0 0
    let tol ← argOr toScalar args 1 0
    let p ← argOr toScalar args 2 1
    some (eighTolB (fac false) eps t n tol fun x => x ^ p)
  | _ => none

/-! ### Overloads in Python -/

/-- An argument after the tensor in Python. -/
inductive PyArg where
  | bool (b : Bool)
  | int (i : Int)
  | float (x : ℝ)
  /-- anything that is not a number; complex numbers are not modelled -/
  | other

/-- The parameters of the functions that are registered: `bool`, `int`, `size_t`, and what `wrap_scalar` makes of a `Scalar`. -/
inductive PyTy where
  | bool
  | int
  | size
  | number

/-- The names of parameters of the functions that are registered, and any other name. -/
inductive Kw where
  | some
  | computeUV
  | upper
  | split
  | tol
  | minSize
  | maxSize
  | pow
  | unknown (s : String)
  deriving DecidableEq

/-- A parameter: its name, whether it comes after `py::kw_only()`, its type and its default value. -/
structure PyPar where
  name : Kw
  kwOnly : Bool
  ty : PyTy
  dflt : Option PyArg

/-- The arguments of a call after the tensor: those without and those with a name. -/
structure PyCall where
  pos : List PyArg
  kw : List (Kw × PyArg)

/-- The casters of pybind11.  A `bool` is an integer for Python; a `float` is never taken for an integer; other things than `True` and `False` are
taken for a `bool` only in the second pass.  A `Scalar` parameter takes any object and then throws if it is not a number, utilities.h:182-194 (integers
are assumed to fit into 64 bits).  `none`: the argument does not fit. -/
noncomputable def castPy (convert : Bool) : PyTy → PyArg → Option (Except Raised Arg)
  | .bool, .bool b => some (.ok (.bool b))
  | .bool, .int i => if convert then some (.ok (.bool (decide (i ≠ 0)))) else none
  | .bool, .float x => if convert then some (.ok (.bool (decide (x ≠ 0)))) else none
  | .bool, .other => none
  | .int, .bool b => some (.ok (.int b.toNat))
  | .int, .int i => if -2 ^ 31 ≤ i ∧ i < 2 ^ 31 then some (.ok (.int i)) else none
  | .int, _ => none
  | .size, .bool b => some (.ok (.size b.toNat))
  | .size, .int i => if 0 ≤ i ∧ i < 2 ^ 64 then some (.ok (.size i.toNat)) else none
  | .size, _ => none
  | .number, .bool b => some (.ok (.scalar b.toNat))
  | .number, .int i => some (.ok (.scalar i))
  | .number, .float x => some (.ok (.scalar x))
  | .number, .other => some (.error .runtimeError)

/-- The object given for a parameter: the positional argument, the one with its name, the default value. -/
def bound (c : PyCall) (p : PyPar × Nat) : Option PyArg :=
  match (if p.1.kwOnly then none else c.pos[p.2]?) with
  | some a => some a
  | none =>
    match (c.kw.find? fun x => decide (x.1 = p.1.name)).map Prod.snd with
    | some a => some a
    | none => p.1.dflt

/-- The objects given for all parameters of an overload; `none` if there are too many, one is missing, or a name is not that of a parameter still free. -/
def bindArgs (ps : List PyPar) (c : PyCall) : Option (List PyArg) :=
  let free := (ps.zipIdx.filter fun p => p.1.kwOnly || decide (c.pos.length ≤ p.2)).map (·.1.name)
  if (ps.filter fun p => !p.kwOnly).length < c.pos.length then none
  else if ¬ c.kw.all (fun x => decide (x.1 ∈ free)) then none
  else ps.zipIdx.mapM (bound c)

/-- The C++ arguments of an overload, if the call fits it. -/
noncomputable def fit (convert : Bool) (ps : List PyPar) (c : PyCall) : Option (Except Raised (List Arg)) := do
  let os ← bindArgs ps c
  let as ← (ps.zip os).mapM fun p => castPy convert p.1.ty p.2
  some (as.mapM id)

/-- The first overload that fits in the order of registration, without and then with conversions. -/
noncomputable def dispatch (ovs : List (List PyPar)) (c : PyCall) : Option (Except Raised (List Arg)) :=
  match ovs.findSome? (fit false · c) with
  | some r => some r
  | none => ovs.findSome? (fit true · c)

/-- The overloads of `linalg.svd` for a block tensor, python_binding/linalg.cpp:19-27, 49-57.  Each lambda passes its arguments to `svd`. -/
def svdPy : List (List PyPar) :=
  [[⟨.some, true, .bool, some (.bool true)⟩, ⟨.computeUV, true, .bool, some (.bool true)⟩],
   [⟨.split, false, .int, none⟩],
   [⟨.split, false, .int, none⟩, ⟨.tol, false, .number, none⟩, ⟨.minSize, true, .size, some (.int 1)⟩,
    ⟨.maxSize, true, .size, some (.int 18446744073709551615)⟩, ⟨.pow, true, .number, some (.int 2)⟩]]

/-- The overloads of `linalg.eigh` for a block tensor, python_binding/linalg.cpp:59-63, 69-72, 85-93. -/
def eighPy : List (List PyPar) :=
  [[⟨.upper, true, .bool, some (.bool false)⟩],
   [⟨.split, false, .int, none⟩],
   [⟨.split, false, .int, none⟩, ⟨.tol, false, .number, none⟩, ⟨.minSize, true, .size, some (.int 1)⟩,
    ⟨.maxSize, true, .size, some (.int 18446744073709551615)⟩, ⟨.pow, true, .number, some (.int 1)⟩]]

/-- `quantit.linalg.svd(t, ...)` in Python; `none` if the module does not compile. -/
noncomputable def svdPython [RCLike 𝕜] [AddCommGroup G] [LinearOrder G] (fac : Bool → Bool → Blk 𝕜 → Blk 𝕜 × Blk 𝕜 × Blk 𝕜) (eps : ℝ) (t : BT G 𝕜)
    (c : PyCall) : Option (Except Raised (BT G 𝕜 × BT G 𝕜 × BT G 𝕜)) :=
  match dispatch svdPy c with
  | none => some (.error .typeError)
  | some (.error r) => some (.error r)
  | some (.ok args) => (svdCall fac eps t args).map (·.mapError Raised.cpp)

/-- `quantit.linalg.eigh(t, ...)` in Python. -/
noncomputable def eighPython [AddCommGroup G] [LinearOrder G] (fac : Bool → Blk ℝ → Blk ℝ × Blk ℝ) (eps : ℝ) (t : BT G ℝ) (c : PyCall) :
    Option (Except Raised (BT G ℝ × BT G ℝ)) :=
  match dispatch eighPy c with
  | none => some (.error .typeError)
  | some (.error r) => some (.error r)
  | some (.ok args) => (eighCall fac eps t args).map (·.mapError Raised.cpp)

end OV
end QuantiT
