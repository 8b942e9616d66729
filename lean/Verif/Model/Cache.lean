import Verif.Model.Stack

/-!
# `laggauss = functools.cache(np.polynomial.laguerre.laggauss)` (`sample.py:41`)

The cache is a dictionary owned by the module, so its content depends on every earlier call.  Simplification: the
cached arrays are values; nothing in snompy writes into them, a user who does is not modelled.
-/

namespace Snompy

/-- What Python code can pass as the order of the quadrature. -/
inductive Order where
  /-- a plain `int` -/
  | int (n : ℤ)
  /-- a numpy integer -/
  | npInt (n : ℤ)
  /-- a `bool` -/
  | bool (b : Bool)
  /-- a float -/
  | float (x : ℚ)

/-- The number an order is equal to (`==`). -/
def Order.val : Order → ℚ
  | .int n => n
  | .npInt n => n
  | .bool b => if b then 1 else 0
  | .float x => x

/-- `operator.index`. -/
def Order.index : Order → PyM ℤ
  | .int n => .ok n
  | .npInt n => .ok n
  | .bool b => .ok (if b then 1 else 0)
  | .float _ => .error (.typeError "deg must be an integer")

/-- The dictionary key CPython makes of the argument of a cached function of one argument
(`lru_cache_make_key` in `Modules/_functoolsmodule.c`): a plain `int` is its own key, everything else is wrapped in a
tuple.  Equal numbers make equal tuples, but a tuple never equals an `int`. -/
inductive Key where
  | plain (n : ℤ)
  | tuple (v : ℚ)
deriving DecidableEq

/-- The key of an order. -/
def Order.key : Order → Key
  | .int n => .plain n
  | o => .tuple o.val

/-- Nodes and weights. -/
abbrev Rule := List (ℝ × ℝ)

/-- numpy's own `laggauss`, without the cache. -/
def laggaussNumpy (env : Env) (o : Order) : PyM Rule := do
  let n ← o.index
  if n ≤ 0 then .error (.valueError "deg must be a positive integer") else .ok (env.laggauss n.toNat)

/-- The content of the cache. -/
abbrev Cache := List (Key × Rule)

/-- `snompy.sample.laggauss`: the outcome and the cache afterwards.  Exceptions are not cached. -/
def laggaussCached (env : Env) (o : Order) (c : Cache) : PyM Rule × Cache :=
  match c.lookup o.key with
  | some r => (.ok r, c)
  | none =>
    match laggaussNumpy env o with
    | .ok r => (.ok r, (o.key, r) :: c)
    | .error e => (.error e, c)

/-- A piece of code that uses nothing of the module's state but `laggauss`: it ends (with a value or an exception), or
calls `laggauss` and goes on with the nodes (an exception of `laggauss` is not caught). -/
inductive Prog (α : Type) where
  | done (r : PyM α)
  | ask (o : Order) (k : Rule → Prog α)

namespace Prog

/-- Execution with the cache. -/
def run {α : Type} (env : Env) : Prog α → Cache → PyM α × Cache
  | .done r, c => (r, c)
  | .ask o k, c =>
    match laggaussCached env o c with
    | (.ok r, c') => (k r).run env c'
    | (.error e, c') => (.error e, c')

/-- Sequencing, as in `do`. -/
def bind {α β : Type} : Prog α → (α → Prog β) → Prog β
  | .done (.ok a), f => f a
  | .done (.error e), _ => .done (.error e)
  | .ask o k, f => .ask o fun r => (k r).bind f

/-- The caches that a history of calls leaves behind, starting from the import of the module. -/
def after (env : Env) : List (Prog Unit) → Cache
  | [] => []
  | p :: ps => (p.run env (after env ps)).2

end Prog

namespace Stack
variable {R J C : Type} [RealOps R] [CplxOps R J C]

/-- `Sample.refl_coef_qs_above_surf` (`sample.py:472-590`) with the cache. -/
noncomputable def aboveSurfProg (s : Stack R C) (zQ : R) (nLag : Order) : Prog C :=
  .ask nLag fun rule => .done do
    let like ← s.reflCoefQs zQ
    CplxOps.quad0 rule [.inr like] fun x w => do
      let q := x / (lit 2 * zQ)
      let betaQ ← s.reflCoefQs q
      pure (ofR (w * x) * betaQ)

/-- `Sample.surf_pot_and_field` (`sample.py:592-726`) with the cache. -/
noncomputable def surfProg (s : Stack R C) (zQ : R) (nLag : Order) : Prog (C × C) :=
  .ask nLag fun rule => .done do
    let like ← s.reflCoefQs zQ
    let phiSum ← CplxOps.quad0 rule [.inr like] fun x w => do
      let q := x / (lit 2 * zQ)
      let betaQ ← s.reflCoefQs q
      pure (ofR w * betaQ)
    let eSum ← CplxOps.quad0 rule [.inr like] fun x w => do
      let q := x / (lit 2 * zQ)
      let betaQ ← s.reflCoefQs q
      pure (ofR (w * x) * betaQ)
    pure (phiSum / ofR (lit 2 * zQ), eSum / ofR (lit 4 * RealOps.npow zQ 2))

/-- `Sample.image_depth_and_charge` (`sample.py:728-798`) with the cache. -/
noncomputable def imageProg (s : Stack R C) (zQ : R) (nLag : Order) : Prog (R × C) :=
  (s.surfProg zQ nLag).bind fun (phi, e) => .done do
    let dImage := CplxOps.cabs (phi / e) - zQ
    let betaImage := CplxOps.cpow phi 2 / e
    pure (dImage, betaImage)

end Stack

end Snompy
