import Verif.Model.Helpers

/-!
# Functions of effector/helpers.py and effector/utils_integrate.py that no class calls

They are importable by users; nothing in the package uses them.
-/

namespace Effector

variable {K : Type} [Field K] [LinearOrder K]

/-- A value in a dictionary of fit parameters, as far as the tests `in [...]` and `type(...) == int` distinguish them. -/
inductive ParVal
  | str (s : String)
  | int (i : ℤ)
  | none
  | other
deriving DecidableEq, Repr

/-- A python dictionary with string keys: the entries in insertion order. -/
abbrev ParDict := List (String × ParVal)

/-- `"k" in d.keys()`. -/
def ParDict.has (d : ParDict) (k : String) : Bool := d.any fun e => e.1 == k

/-- `d["k"]` (`KeyError` when absent). -/
def ParDict.get (d : ParDict) (k : String) : Py ParVal :=
  match d.lookup k with
  | some v => .ok v
  | none => .error .keyError

/-- `d["k"] = v` for a key that is absent: appended. -/
def ParDict.add (d : ParDict) (k : String) (v : ParVal) : ParDict := d ++ [(k, v)]

/-- `assert type(par["k"]) == int`. -/
def assertInt (d : ParDict) (k : String) : Py Unit := do
  match ← d.get k with
  | .int _ => .ok ()
  | _ => .error .assertionError

/-- effector/helpers.py:54-57: `bin_method`. -/
def prepBinMethod (d : ParDict) : ParDict × Py Unit :=
  if d.has "bin_method" then
    (d, do
      match ← d.get "bin_method" with
      | .str s => if s = "fixed" ∨ s = "greedy" ∨ s = "dp" then .ok () else .error .assertionError
      | _ => .error .assertionError)
  else (d.add "bin_method" (.str "fixed"), .ok ())

/-- effector/helpers.py:59-62, 64-67 (and 79-82): an integer parameter with a default. -/
def prepIntParam (k : String) (default : ℤ) (d : ParDict) : ParDict × Py Unit :=
  if d.has k then (d, assertInt d k) else (d.add k (.int default), .ok ())

/-- effector/helpers.py:69-72: when `min_points_per_bin` is given, line 70 asserts the type of `max_nof_bins`. -/
def prepMinPoints (d : ParDict) : ParDict × Py Unit :=
  if d.has "min_points_per_bin" then (d, assertInt d "max_nof_bins") else (d.add "min_points_per_bin" .none, .ok ())

/-- One step after another; an exception keeps the dictionary as it is at that moment. -/
def thenDo (r : ParDict × Py Unit) (f : ParDict → ParDict × Py Unit) : ParDict × Py Unit :=
  match r.2 with
  | .ok () => f r.1
  | .error e => (r.1, .error e)

/-- effector/helpers.py:50-74 `prep_dale_fit_params`: the caller's dictionary (a new one for `None`) after the call, and
whether the call raised.  The returned value is that dictionary, the same object. -/
def prepDaleFitParams (par : Option ParDict) : ParDict × Py Unit :=
  thenDo (thenDo (thenDo (prepBinMethod (par.getD [])) (prepIntParam "nof_bins" 100)) (prepIntParam "max_nof_bins" 20)) prepMinPoints

/-- effector/helpers.py:77-82 `prep_ale_fit_params`; `None.keys()` raises `AttributeError`. -/
def prepAleFitParams (par : Option ParDict) : ParDict × Py Unit :=
  match par with
  | none => ([], .error .attributeError)
  | some d => prepIntParam "nof_bins" 100 d

/-- The value part of `scipy.integrate.quad(func, a, b)`, as a parameter: scipy is not modelled. -/
abbrev Quadrature (K : Type) := (K → K) → K → K → K

/-- `scipy.integrate.dblquad(func, a, b, gfun, hfun)`: "the double integral of func(y, x) from x = a..b and
y = gfun(x)..hfun(x)". -/
def dblquad (quad : Quadrature K) (func : K → K → K) (a b : K) (gfun hfun : K → K) : K :=
  quad (fun x => quad (fun y => func y x) (gfun x) (hfun x)) a b

/-- effector/utils_integrate.py:5-18 `integrate_1d_quad`; `func` maps an array to an array, `wrapper` calls it on one
point. -/
def integrate1dQuad (quad : Quadrature K) (func : List K → List K) (start stop : K) : K :=
  quad (fun x => (func [x]).headD 0) start stop

/-- effector/utils_integrate.py:48-66 `expectation_1D` (the value part), two features; `func(x)[0]` on one row. -/
def expectation1D (quad : Quadrature K) (xs : K) (func : List (Row K 2) → List K) (pxc : K → K) (s : ℤ) (start stop : K) : K :=
  quad (fun xc =>
    let x : Row K 2 := if s = 0 then fun i => if i = 0 then xs else xc else fun i => if i = 0 then xc else xs
    (func [x]).headD 0 * pxc xc) start stop

/-- effector/utils_integrate.py:69-100 `expecation_2D` (the value part), three features; `s` other than 0, 1, 2 raises
`UnboundLocalError` and is not represented. -/
def expectation2D (quad : Quadrature K) (xs : K) (func : List (Row K 3) → List K) (pxc : K → K → K) (s : Fin 3) (lo hi : Fin 3 → K) : K :=
  dblquad quad (fun xc1 xc2 =>
    let x : Row K 3 :=
      if s = 0 then fun i => if i = 0 then xs else if i = 1 then xc1 else xc2
      else if s = 1 then fun i => if i = 0 then xc1 else if i = 1 then xs else xc2
      else fun i => if i = 0 then xc1 else if i = 1 then xc2 else xs
    (func [x]).headD 0 * pxc xc1 xc2) (lo 2) (hi 2) (fun _ => lo 1) (fun _ => hi 1)

end Effector
