import Verif.Props.ColumnsMovedEval
import Mathlib.Algebra.BigOperators.Ring.Finset
import Mathlib.Data.Finset.Powerset
import Mathlib.Data.Nat.Factorial.Basic

/-!
# C128: exact Shapley values do not notice columns the model does not use

The hypothesis `ShapMoved` of C128 on the explainer holds for the explainer that computes the Shapley values of the features exactly, the background being the explained instances themselves.
-/

namespace Effector

set_option linter.unusedSectionVars false

open Spec Finset

variable {K : Type} [Field K] [LinearOrder K] [IsStrictOrderedRing K] {D D' : ℕ}

namespace Spec

/-- The Shapley value of the player `j` in the game `v` of the players `N`. -/
def shapleyValue {P : Type} [DecidableEq P] (N : Finset P) (v : Finset P → K) (j : P) : K :=
  ∑ S ∈ (N.erase j).powerset, ((S.card.factorial * (N.card - S.card - 1).factorial : ℕ) : K) / (N.card.factorial : ℕ) * (v (insert j S) - v S)

/-- The game of the instance `r`: the mean output over the background when the features of the coalition have the values of the instance. -/
def shapleyGame (f : Row K D → K) (background : List (Row K D)) (r : Row K D) (S : Finset (Fin D)) : K :=
  mean (background.map fun z => f fun j => if j ∈ S then r j else z j)

/-- The explainer that computes the Shapley values of all features of all instances, the background being these instances. -/
def exactShapley (f : Row K D → K) (spline : List (K × K) → Py (K → K)) : ShapExt K D :=
  { explain := fun x => .ok (x.map fun r j => shapleyValue univ (shapleyGame f x r) j), spline := spline }

end Spec

theorem shapley_dummy {P : Type} [DecidableEq P] (v : Finset P → K) {N : Finset P} {d p : P} (hd : d ∉ N) (hp : p ∈ N) (hv : ∀ S, v (insert d S) = v S) :
    shapleyValue (insert d N) v p = shapleyValue N v p := by
  have hdp : d ≠ p := fun h => hd (h ▸ hp)
  have hdn : d ∉ N.erase p := fun h => hd (mem_of_mem_erase h)
  unfold shapleyValue
  rw [erase_insert_of_ne hdp, sum_powerset_insert hdn, ← sum_add_distrib]
  refine sum_congr rfl fun S hS => ?_
  rw [mem_powerset] at hS
  have hdS : d ∉ S := fun h => hdn (hS h)
  have hc : S.card ≤ (N.erase p).card := card_le_card hS
  rw [card_erase_of_mem hp] at hc
  have hpos : 0 < N.card := card_pos.mpr ⟨p, hp⟩
  obtain ⟨k, hk⟩ : ∃ k, N.card = S.card + k + 1 := ⟨N.card - S.card - 1, by omega⟩
  rw [insert_comm, hv, hv, card_insert_of_notMem hd, card_insert_of_notMem hdS, ← add_mul]
  congr 1
  rw [hk, show S.card + k + 1 + 1 - S.card - 1 = k + 1 by omega, show S.card + k + 1 + 1 - (S.card + 1) - 1 = k by omega, show S.card + k + 1 - S.card - 1 = k by omega]
  have h1 : ((S.card + k + 1).factorial : K) ≠ 0 := by exact_mod_cast Nat.factorial_ne_zero _
  have h2 : ((S.card : K) + k + 1 + 1) ≠ 0 := by positivity
  rw [Nat.factorial_succ (S.card + k + 1), Nat.factorial_succ k, Nat.factorial_succ S.card]
  push_cast
  field_simp
  ring

theorem shapley_dummies {P : Type} [DecidableEq P] (v : Finset P → K) {N : Finset P} {p : P} (hp : p ∈ N) (M : Finset P) (hM : ∀ d ∈ M, d ∉ N) (hv : ∀ d ∈ M, ∀ S, v (insert d S) = v S) :
    shapleyValue (M ∪ N) v p = shapleyValue N v p := by
  induction M using Finset.induction_on with
  | empty => rw [empty_union]
  | insert d M hd ih =>
    rw [insert_union, shapley_dummy v (d := d) ?_ (mem_union_right _ hp) (hv d (mem_insert_self d M)),
      ih (fun x hx => hM x (mem_insert_of_mem hx)) fun x hx => hv x (mem_insert_of_mem hx)]
    rw [mem_union]
    rintro (h | h)
    · exact hd h
    · exact hM d (mem_insert_self d M) h

theorem shapley_map {P Q : Type} [DecidableEq P] [DecidableEq Q] (i : P ↪ Q) (v : Finset Q → K) (N : Finset P) (p : P) :
    shapleyValue (N.map i) v (i p) = shapleyValue N (fun S => v (S.map i)) p := by
  unfold shapleyValue
  rw [← map_erase]
  symm
  refine sum_bij (fun S _ => S.map i) (fun S hS => ?_) (fun S _ T _ h => map_injective i h) (fun T hT => ?_) fun S _ => ?_
  · rw [mem_powerset] at hS ⊢
    exact map_subset_map.mpr hS
  · rw [mem_powerset, subset_map_iff] at hT
    obtain ⟨S, hS, rfl⟩ := hT
    exact ⟨S, mem_powerset.mpr hS, rfl⟩
  · simp only [card_map, map_insert]

/-- **C128, exact Shapley values** of a model that uses only the columns `ι 0, ι 1, ...` meet the hypothesis of `C128_shap` on the explainer: the features get the values they have without the other columns. -/
theorem C128_shapley {ι : Fin D → Fin D'} (hι : Function.Injective ι) {f : Row K D → K} {f' : Row K D' → K} (hf : ∀ r, f (onlyColumns ι r) = f' r) (spline : List (K × K) → Py (K → K)) :
    ShapMoved ι (exactShapley f spline) (exactShapley f' spline) := by
  refine ⟨fun x => ?_, rfl⟩
  simp only [exactShapley, Except.map, List.map_map]
  congr 1
  refine List.map_congr_left fun r _ => ?_
  funext j
  simp only [Function.comp]
  show _ = shapleyValue univ (shapleyGame f' x r) (ι j)
  have hgame : ∀ (S : Finset (Fin D)) (T : Finset (Fin D')), (∀ j, ι j ∈ T ↔ j ∈ S) → shapleyGame f' x r T = shapleyGame f (x.map (onlyColumns ι)) (onlyColumns ι r) S := by
    intro S T h
    unfold shapleyGame
    rw [List.map_map]
    congr 1
    refine List.map_congr_left fun z _ => ?_
    simp only [Function.comp]
    rw [← hf]
    congr 1
    funext j
    simp only [onlyColumns, h]
  have hi : ∀ j, ι j ∈ (univ : Finset (Fin D)).map ⟨ι, hι⟩ := fun j => mem_map_of_mem ⟨ι, hι⟩ (mem_univ j)
  have hu : (univ : Finset (Fin D')) = (univ \ (univ : Finset (Fin D)).map ⟨ι, hι⟩) ∪ (univ : Finset (Fin D)).map ⟨ι, hι⟩ := by
    rw [sdiff_union_of_subset (subset_univ _)]
  rw [hu, shapley_dummies _ (hi j) _ (fun d hd => (mem_sdiff.mp hd).2) fun d hd S => ?_, show ι j = (⟨ι, hι⟩ : Fin D ↪ Fin D') j from rfl, shapley_map]
  · congr 1
    funext S
    symm
    exact hgame S _ fun k => by rw [show ι k = (⟨ι, hι⟩ : Fin D ↪ Fin D') k from rfl, mem_map']
  · have hne : ∀ k, ι k ≠ d := fun k h => (mem_sdiff.mp hd).2 (h ▸ hi k)
    rw [hgame (univ.filter fun k => ι k ∈ S) S (by simp), hgame (univ.filter fun k => ι k ∈ S) (insert d S) (by simp [hne])]

end Effector
