import Verif.Model.Heap
import Verif.Props.Pdp

/-!
# C105: what the model may do with the array it is handed

`Callable.value m X` is what `model(X)` gives on an array of its own with contents `X`: the function that all other theorems of this development take the model
for.  The theorems say which routines compute with that function whatever the callable does to its argument (return a view of it, overwrite it), and that they
leave every array that existed before the call - in particular the caller's - as it was.
-/

set_option linter.unusedSectionVars false

namespace Effector

variable {K : Type} [Field K] [LinearOrder K] {D : ℕ}

/-- The values of `model(X)` for an array of its own with contents `X`. -/
def Callable.value (m : Callable K D) (X : List (Row K D)) : List K :=
  match (m.call X).2 with
  | .fresh y => y
  | .view g => g (m.call X).1

/-- The values of `model_jac(X)` for an array of its own with contents `X`. -/
def JacCallable.value (j : JacCallable K D) (X : List (Row K D)) : List (Row K D) :=
  match (j.call X).2 with
  | .fresh J => J
  | .view g => g (j.call X).1

/-- The callable does not write into its argument. -/
def Callable.Quiet (m : Callable K D) : Prop := ∀ X, (m.call X).1 = X

/-- The callable returns an array of its own. -/
def Callable.Owns (m : Callable K D) : Prop := ∀ X, ∃ y, (m.call X).2 = .fresh y

/-- Running `p` on memory `h` gives the value `v` and leaves every array of `h` as it was (it may have allocated others). -/
def Gives {α : Type} (p : HeapM K D α) (h : Memory K D) (v : α) : Prop := ∃ ext, p h = (h ++ ext, v)

theorem column_value (j : JacCallable K D) (s : Fin D) (X : List (Row K D)) : (j.column s).value X = col (j.value X) s := by
  unfold Callable.value JacCallable.value JacCallable.column
  cases h : (j.call X).2 <;> simp [h]

/-! ## Memory -/

theorem getD_new (h ext : Memory K D) (i : ℕ) : (h ++ ext).getD (h.length + i) [] = ext.getD i [] := by
  rw [List.getD_eq_getElem?_getD, List.getD_eq_getElem?_getD, List.getElem?_append_right (Nat.le_add_right _ _), Nat.add_sub_cancel_left]

theorem getD_old (h ext : Memory K D) (a : ℕ) (ha : a < h.length) : (h ++ ext).getD a [] = h.getD a [] := by
  simp [List.getD_eq_getElem?_getD, List.getElem?_append_left ha]

theorem set_new (h ext : Memory K D) (i : ℕ) (X : List (Row K D)) : (h ++ ext).set (h.length + i) X = h ++ ext.set i X := by
  simp

/-- What a reference reads once the call has been made. -/
def refOf (m : Callable K D) (a : ℕ) (X : List (Row K D)) : Arr K D :=
  match (m.call X).2 with
  | .fresh y => .owned y
  | .view g => .view a g

theorem callOn_eq (m : Callable K D) (a : ℕ) (h : Memory K D) :
    callOn m a h = (h.set a (m.call (h.getD a [])).1, refOf m a (h.getD a [])) := by
  rfl

theorem readArr_ref (m : Callable K D) (a : ℕ) (X : List (Row K D)) (h : Memory K D) (ha : h.getD a [] = (m.call X).1) :
    readArr (refOf m a X) h = (h, m.value X) := by
  unfold refOf Callable.value
  cases hc : (m.call X).2 with
  | fresh y => rfl
  | view g => simp only [readArr, bind, load, pure, ha]

/-! ## Row by row -/

theorem heapRowsLoop_spec (cast : K → K) (m : Callable K D) (data : ℕ) (s : Fin D) (x : List K) (h : Memory K D) (hd : data < h.length) :
    ∃ ext refs, heapRowsLoop cast m data s x h = (h ++ ext, refs) ∧
      ∀ later, readAll refs (h ++ ext ++ later) = (h ++ ext ++ later, x.map fun v => m.value (setAll cast (h.getD data []) s v)) := by
  induction x generalizing h with
  | nil => exact ⟨[], [], by simp [heapRowsLoop, pure], fun later => rfl⟩
  | cons v t ih =>
    have hX : ∀ Y, (h ++ [Y]).getD h.length [] = Y := fun Y => getD_new h [Y] 0
    have hset : ∀ Y Z, (h ++ [Y]).set h.length Z = h ++ [Z] := fun Y Z => set_new h [Y] 0 Z
    obtain ⟨ext, refs, hrun, hread⟩ := ih (h ++ [(m.call (setAll cast (h.getD data []) s v)).1]) (by simp; omega)
    refine ⟨[(m.call (setAll cast (h.getD data []) s v)).1] ++ ext, refOf m h.length (setAll cast (h.getD data []) s v) :: refs, ?_, ?_⟩
    · simp only [heapRowsLoop, copyOf, alloc, load, setFeature, store, bind, pure, callOn_eq, hX, hset]
      rw [hrun]
      simp
    · intro later
      have := hread later
      rw [getD_old _ _ _ hd] at this
      simp only [readAll, bind, pure]
      rw [readArr_ref]
      · simp only [List.append_assoc] at this ⊢
        rw [this]
        simp
      · simp only [List.append_assoc]
        exact getD_new h ([(m.call (setAll cast (h.getD data []) s v)).1] ++ (ext ++ later)) 0

/-- **C105** (PDP and d-PDP with `model_jac`, row by row). -/
theorem C105_rows (cast : K → K) (m : Callable K D) (data : ℕ) (x : List K) (s : Fin D) (h : Memory K D) (hd : data < h.length) :
    Gives (heapRows cast m data x s) h (pdpNonVecY cast (.pred m.value) (h.getD data []) x s false) := by
  obtain ⟨ext, refs, hrun, hread⟩ := heapRowsLoop_spec cast m data s x h hd
  refine ⟨ext, ?_⟩
  simp only [heapRows, bind, hrun]
  have := hread []
  simp only [List.append_nil] at this
  rw [this]
  simp [pdpNonVecY, BlackBox.out]

/-! ## All positions at once -/

theorem zipWith_replicate_update (cast : K → K) (X : List (Row K D)) (s : Fin D) (a : K) :
    List.zipWith (fun r v => Function.update r s (cast v)) X (List.replicate X.length a) = setAll cast X s a := by
  unfold setAll
  induction X with
  | nil => rfl
  | cons r X ihX => simpa [List.replicate_succ] using ihX

theorem setBlocks_repeat (cast : K → K) (X : List (Row K D)) (x : List K) (s : Fin D) (y : List K) (hy : y.length = x.length) :
    setBlocks cast X.length (x.flatMap fun _ => X) y s = pdpBatch cast X y s := by
  unfold setBlocks pdpBatch
  induction x generalizing y with
  | nil =>
    cases y with
    | nil => rfl
    | cons a t => simp at hy
  | cons v t ih =>
    cases y with
    | nil => simp at hy
    | cons a u =>
      simp only [List.flatMap_cons]
      rw [List.zipWith_append (by simp), ih u (by simpa using hy)]
      congr 1
      exact zipWith_replicate_update cast X s a

/-- **C105** (PDP and d-PDP with `model_jac`, vectorised). -/
theorem C105_vec (cast : K → K) (m : Callable K D) (data : ℕ) (x : List K) (s : Fin D) (h : Memory K D) :
    Gives (heapVec cast m data x s) h (pdpVecY cast (.pred m.value) (h.getD data []) x s false) := by
  generalize hX : h.getD data [] = X
  have e1 : ∀ Y, (h ++ [Y]).getD h.length [] = Y := fun Y => getD_new h [Y] 0
  have e2 : ∀ Y Z, (h ++ [Y, Z]).getD (h.length + 1) [] = Z := fun Y Z => getD_new h [Y, Z] 1
  have e3 : ∀ Y Z W, (h ++ [Y, Z]).set (h.length + 1) W = h ++ [Y, W] := fun Y Z W => set_new h [Y, Z] 1 W
  refine ⟨[X, (m.call (pdpBatch cast X x s)).1], ?_⟩
  simp only [heapVec, heapRepeat, copyOf, alloc, load, store, bind, pure, callOn_eq, hX, e1, List.append_assoc, List.cons_append, List.nil_append,
    List.length_append, List.length_cons, List.length_nil, zero_add, e2, e3, setBlocks_repeat cast X x s x rfl]
  rw [readArr_ref _ _ _ _ (e2 _ _)]
  simp [pdpVecY, BlackBox.out]

/-- **C105** (d-PDP without `model_jac`, vectorised): two arrays, one per side. -/
theorem C105_vec_derivative (cast : K → K) (m : Callable K D) (data : ℕ) (x : List K) (s : Fin D) (h : Memory K D) :
    Gives (heapVecDer cast m data x s) h (pdpVecY cast (.pred m.value) (h.getD data []) x s true) := by
  generalize hX : h.getD data [] = X
  have e1 : ∀ Y, (h ++ [Y]).getD h.length [] = Y := fun Y => getD_new h [Y] 0
  have e2 : ∀ Y Z, (h ++ [Y, Z]).getD (h.length + 1) [] = Z := fun Y Z => getD_new h [Y, Z] 1
  have e3 : ∀ Y Z W, (h ++ [Y, Z, W]).getD (h.length + 1) [] = Z := fun Y Z W => getD_new h [Y, Z, W] 1
  have e4 : ∀ Y Z W, (h ++ [Y, Z, W]).getD (h.length + 2) [] = W := fun Y Z W => getD_new h [Y, Z, W] 2
  have e5 : ∀ Y Z W V, (h ++ [Y, Z, W]).set (h.length + 2) V = h ++ [Y, Z, V] := fun Y Z W V => set_new h [Y, Z, W] 2 V
  have e6 : ∀ Y Z W V, (h ++ [Y, Z, W, V]).getD (h.length + 3) [] = V := fun Y Z W V => getD_new h [Y, Z, W, V] 3
  have e7 : ∀ Y Z W V, (h ++ [Y, Z, W, V]).getD (h.length + 2) [] = W := fun Y Z W V => getD_new h [Y, Z, W, V] 2
  have e8 : ∀ Y Z W V U, (h ++ [Y, Z, W, V]).set (h.length + 3) U = h ++ [Y, Z, W, U] := fun Y Z W V U => set_new h [Y, Z, W, V] 3 U
  have e9 : ∀ Y Z W V U, (h ++ [Y, Z, W, V]).set (h.length + 2) U = h ++ [Y, Z, U, V] := fun Y Z W V U => set_new h [Y, Z, W, V] 2 U
  refine ⟨[X, x.flatMap fun _ => X, (m.call (pdpBatch cast X (x.map (· + FD_STEP)) s)).1, (m.call (pdpBatch cast X (x.map (· - FD_STEP)) s)).1], ?_⟩
  simp only [heapVecDer, heapRepeat, copyOf, alloc, load, store, bind, pure, callOn_eq, hX, e1, List.append_assoc, List.cons_append, List.nil_append,
    List.length_append, List.length_cons, List.length_nil, zero_add, Nat.reduceAdd, e2, e3, e4, e5, e6, e7, e8, e9, setBlocks_repeat cast X x s _ (List.length_map _)]
  rw [readArr_ref _ _ _ _ (e7 _ _ _ _)]
  simp only
  rw [readArr_ref _ _ _ _ (e6 _ _ _ _)]
  simp [pdpVecY]

/-! ## Finite differences row by row: one array for two calls -/

/-- **C105** (d-PDP without `model_jac`, row by row), only for callables that return arrays of their own and do not write into their argument. -/
theorem C105_rows_derivative_partial (cast : K → K) (m : Callable K D) (hq : m.Quiet) (ho : m.Owns) (data : ℕ) (x : List K) (s : Fin D) (h : Memory K D)
    (hd : data < h.length) :
    Gives (heapRowsDer cast m data s x) h (pdpNonVecY cast (.pred m.value) (h.getD data []) x s true) := by
  induction x generalizing h with
  | nil => exact ⟨[], by simp [heapRowsDer, pure, pdpNonVecY]⟩
  | cons v t ih =>
    have hX : ∀ Y, (h ++ [Y]).getD h.length [] = Y := fun Y => getD_new h [Y] 0
    have hset : ∀ Y Z, (h ++ [Y]).set h.length Z = h ++ [Z] := fun Y Z => set_new h [Y] 0 Z
    have href : ∀ a Y, refOf m a Y = .owned (m.value Y) := by
      intro a Y
      obtain ⟨y, hy⟩ := ho Y
      simp [refOf, Callable.value, hy]
    have hcol : setAll cast (setAll cast (h.getD data []) s (v + FD_STEP)) s (v - FD_STEP) = setAll cast (h.getD data []) s (v - FD_STEP) := by
      simp [setAll, List.map_map, Function.comp_def, Function.update_idem]
    obtain ⟨ext, hrun⟩ := ih (h ++ [setAll cast (h.getD data []) s (v - FD_STEP)]) (by simp; omega)
    rw [getD_old _ _ _ hd] at hrun
    refine ⟨[setAll cast (h.getD data []) s (v - FD_STEP)] ++ ext, ?_⟩
    simp only [heapRowsDer, copyOf, alloc, load, setFeature, store, bind, pure, callOn_eq, hX, hset, hq _, hcol, href, readArr]
    rw [hrun]
    simp [pdpNonVecY]

/-- For a callable that returns a view, both differences are taken from the same memory: the result is 0 everywhere. -/
theorem C105_rows_derivative_view (cast : K → K) (m : Callable K D) (g : List (Row K D) → List K) (hg : ∀ X, (m.call X).2 = .view g) (data : ℕ) (x : List K)
    (s : Fin D) (h : Memory K D) (row : List K) (hrow : row ∈ (heapRowsDer cast m data s x h).2) : ∀ y ∈ row, y = 0 := by
  induction x generalizing h with
  | nil => simp [heapRowsDer, pure] at hrow
  | cons v t ih =>
    simp only [heapRowsDer, copyOf, alloc, load, setFeature, store, bind, pure, callOn_eq] at hrow
    simp only [refOf, hg, readArr, bind, load, pure, List.mem_cons] at hrow
    rcases hrow with rfl | hrow
    · intro y hy
      unfold centralDiff at hy
      rw [List.zipWith_self] at hy
      obtain ⟨a, _, rfl⟩ := List.mem_map.mp hy
      simp
    · exact ih _ hrow

end Effector
