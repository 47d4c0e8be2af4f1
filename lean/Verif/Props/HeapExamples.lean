import Verif.Props.HeapAle
import Mathlib.Data.Rat.Defs
import Mathlib.Algebra.Order.Ring.Rat
import Mathlib.Data.Fin.VecNotation
import Mathlib.Tactic.NormNum

/-!
# C105: concrete callables - a view, a writer, a quiet one - and the three places where the difference shows
-/

set_option linter.unusedSectionVars false

namespace Effector

/-- `lambda x: x[:, 0]`: a view of the argument. -/
def exViewModel : Callable ℚ 2 where
  call X := (X, .view fun X => col X 0)

/-- `def model(x): x[:, 0] += 1; return 2 * x[:, 0]`: writes into its argument and returns a new array. -/
def exWriter : Callable ℚ 2 where
  call X :=
    let X' := X.map fun r => Function.update r 0 (r 0 + 1)
    (X', .fresh (X'.map fun r => 2 * r 0))

/-- `lambda x: x[:, 0] * x[:, 1]`: leaves its argument alone and returns a new array. -/
def exQuietModel : Callable ℚ 2 where
  call X := (X, .fresh (X.map fun r => r 0 * r 1))

/-- `model_jac` that returns its own argument, `lambda x: x`. -/
def exViewJac : JacCallable ℚ 2 where
  call X := (X, .view id)

/-- The caller's data set. -/
def exHeapData : List (Row ℚ 2) := [![0, 1], ![2, 3], ![4, 5]]

/-- The rows as pairs (to compare them). -/
def asPairs (X : List (Row ℚ 2)) : List (ℚ × ℚ) := X.map fun r => (r 0, r 1)

theorem exQuiet_quiet : exQuietModel.Quiet := fun _ => rfl
theorem exQuiet_owns : exQuietModel.Owns := fun _ => ⟨_, rfl⟩
theorem exView_quiet : exViewModel.Quiet := fun _ => rfl

/-- The mathematical function behind each of the three. -/
theorem ex_values (X : List (Row ℚ 2)) :
    exViewModel.value X = X.map (fun r => r 0) ∧ exWriter.value X = X.map (fun r => 2 * (r 0 + 1)) ∧ exQuietModel.value X = X.map (fun r => r 0 * r 1) := by
  refine ⟨rfl, ?_, rfl⟩
  show (X.map fun r => Function.update r 0 (r 0 + 1)).map (fun r => 2 * r 0) = _
  simp

/-! ## Concrete cases of the theorems -/

/-- A PDP object whose model writes into the arrays it is handed. -/
def exHeapCfg : HeapPdpCfg ℚ 2 where
  cast := id
  kind := .pdp exWriter
  axisLo := fun _ => 0
  axisHi := fun _ => 5

/-- A d-PDP object whose `model_jac` returns a view. -/
def exHeapJacCfg : HeapPdpCfg ℚ 2 where
  cast := id
  kind := .derJac exViewJac
  axisLo := fun _ => 0
  axisHi := fun _ => 5

/-- Hypotheses of `C105_session` for a writing model (with `avg_output` given), a history with both implementations and two centrings. -/
example : exHeapCfg.kind.Safe false ∧ exHeapCfg.kind.Safe true ∧ exHeapJacCfg.kind.Safe false ∧
    (HeapKind.derNum exQuietModel).Safe false ∧ (HeapKind.derNum exViewModel).Safe true ∧ ¬ (HeapKind.derNum exViewModel).Safe false := by
  refine ⟨trivial, trivial, trivial, Or.inr ⟨exQuiet_quiet, exQuiet_owns⟩, Or.inl rfl, ?_⟩
  rintro (h | ⟨_, h⟩)
  · cases h
  · obtain ⟨y, hy⟩ := h []
    cases hy

/-- What the session returns, and that the caller's array is untouched: `eval(0, [0, 1], centering="zero_start")` after a `fit`. -/
theorem C105_example_session :
    let p := do
      let self ← heapConstruct exWriter 0 [0, 1, 2] true
      let o ← heapRun exHeapCfg (HeapPdp.init self) [.fit (.str "all") (.bool false) 30 true, .eval 1 [1] false (.bool false) true false]
      let r ← heapEval exHeapCfg o 0 [0, 1] false (.str "zero_start") true false
      return r.2
    (p [exHeapData]).1.head?.map asPairs = some [(0, 1), (2, 3), (4, 5)] ∧ (p [exHeapData]).2 = .ok (.all [[0, 0, 0], [2, 2, 2]]) := by
  refine ⟨?_, ?_⟩ <;> decide +kernel

/-- Hypotheses of `C105_rhale_session_partial`: a quiet model, a Jacobian function that returns a view. -/
example : exQuietModel.Quiet ∧ exViewJac.Quiet := ⟨fun _ => rfl, fun _ => rfl⟩

/-- ALE with a model that writes: fit and eval of feature 0 at 2 and 4 with 2 equal bins; the true slope of the model's function is 2. -/
theorem C105_example_ale :
    let p := do
      let self ← heapConstruct exWriter 0 [0, 1, 2] true
      let cfg := heapAleCfg id exWriter self (fun _ => 0) (fun _ => 5)
      let o ← heapAleRun cfg { eff := none, st := AleState.init } [.fit (.list [0]) (.fixed 2 (some 0) 0) (.bool false)]
      let r ← heapAleEval cfg o 0 [0, 2, 4] false (.bool false)
      return r.2
    (p [exHeapData]).1.head?.map asPairs = some [(0, 1), (2, 3), (4, 5)] ∧ (p [exHeapData]).2 = .ok ([0, 4, 8 + 3 / 250000000], none) := by
  refine ⟨?_, ?_⟩ <;> decide +kernel

/-! ## Where the difference shows -/

/-- **C105**, false in general for the d-PDP without `model_jac` computed row by row: for `model = lambda x: x[:, 0]` the derivative curve is 0 with
`use_vectorized=False` and 1 with `use_vectorized=True`. -/
theorem C105_false_rows_derivative :
    (heapPredict id (.derNum exViewModel) 0 [1, 2] 0 false [exHeapData]).2 = .ok [[0, 0, 0], [0, 0, 0]] ∧
      (heapPredict id (.derNum exViewModel) 0 [1, 2] 0 true [exHeapData]).2 = .ok [[1, 1, 1], [1, 1, 1]] ∧
      pdpPredict id (.derNum exViewModel.value) exHeapData [1, 2] 0 false = .ok [[1, 1, 1], [1, 1, 1]] := by
  refine ⟨?_, ?_, ?_⟩ <;> decide +kernel

/-- **C105**, false in general for constructors without `avg_output`: the object's own data set is what the model left behind, so a second PDP at the same
position differs from the one with `avg_output` given. -/
theorem C105_false_constructor :
    let run (avgGiven : Bool) := do
      let self ← heapConstruct exWriter 0 [0, 1, 2] avgGiven
      let X ← load self
      let r ← heapEval exHeapCfg (HeapPdp.init self) 1 [0] false (.bool false) false false
      return (X, r.2)
    asPairs (run true [exHeapData]).2.1 = [(0, 1), (2, 3), (4, 5)] ∧ asPairs (run false [exHeapData]).2.1 = [(1, 1), (3, 3), (5, 5)] ∧
      (run true [exHeapData]).2.2 = .ok (.meanOnly [6]) ∧ (run false [exHeapData]).2.2 = .ok (.meanOnly [8]) := by
  refine ⟨?_, ?_, ?_, ?_⟩ <;> decide +kernel

/-- **C105**, false in general for `compute_jacobian_numerically` (called by RHALE and regional RHALE without `model_jac`; the latter on the caller's own array):
a model that writes into its argument changes the data set, once per feature, while the Jacobian is being computed. -/
theorem C105_false_jacobian :
    (heapJacobian exWriter 0 (1 / 10) [exHeapData]).1.head?.map asPairs = some [(2, 1), (4, 3), (6, 5)] := by
  decide +kernel

end Effector
