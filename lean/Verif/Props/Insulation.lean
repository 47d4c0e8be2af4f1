import Verif.Props.HeapAle

/-!
# C106: what the caller does to its arrays after it has passed them
-/

set_option linter.unusedSectionVars false

namespace Effector

variable {K : Type} [Field K] [LinearOrder K] {D : ℕ} {Op : Type}

namespace Spec

/-- The calls of a schedule, each with the contents of the array `axis_limits` at that moment. -/
def callsWith (lim : (Fin D → K) × (Fin D → K)) : List (Sched Op K D) → List (((Fin D → K) × (Fin D → K)) × Op)
  | [] => []
  | .call op :: t => (lim, op) :: callsWith lim t
  | .write _ _ :: t => callsWith lim t
  | .limits lo hi :: t => callsWith (lo, hi) t

/-- The contents of `axis_limits` after a schedule. -/
def limitsAfter (lim : (Fin D → K) × (Fin D → K)) : List (Sched Op K D) → (Fin D → K) × (Fin D → K)
  | [] => lim
  | .call _ :: t => limitsAfter lim t
  | .write _ _ :: t => limitsAfter lim t
  | .limits lo hi :: t => limitsAfter (lo, hi) t

/-- The calls of a schedule. -/
def callsOf : List (Sched Op K D) → List Op
  | [] => []
  | .call op :: t => op :: callsOf t
  | .write _ _ :: t => callsOf t
  | .limits _ _ :: t => callsOf t

/-- The caller's arrays after a schedule: what the caller wrote, and nothing else. -/
def callerAfter : List (Sched Op K D) → Memory K D → Memory K D
  | [], h => h
  | .call _ :: t, h => callerAfter t h
  | .write a X :: t, h => callerAfter t (h.set a X)
  | .limits _ _ :: t, h => callerAfter t h

/-- The caller writes only into its own `n` arrays. -/
def OwnWrites (n : ℕ) (l : List (Sched Op K D)) : Prop := ∀ a X, Sched.write a X ∈ l → a < n

/-- The caller does not touch the array it passed as `axis_limits` (or passed none). -/
def KeepsLimits (l : List (Sched Op K D)) : Prop := ∀ lo hi, Sched.limits lo hi ∉ l

end Spec

open Spec

theorem callerAfter_length (l : List (Sched Op K D)) (h : Memory K D) : (callerAfter l h).length = h.length := by
  induction l generalizing h with
  | nil => rfl
  | cons x t ih => cases x <;> simp [callerAfter, ih]

theorem keepsLimits (lim : (Fin D → K) × (Fin D → K)) (l : List (Sched Op K D)) (hk : KeepsLimits l) :
    callsWith lim l = (callsOf l).map (fun op => (lim, op)) ∧ limitsAfter lim l = lim := by
  induction l with
  | nil => exact ⟨rfl, rfl⟩
  | cons x t ih =>
    have ht := ih fun lo hi hm => hk lo hi (List.mem_cons_of_mem _ hm)
    cases x with
    | call op => exact ⟨by simp [callsWith, callsOf, ht.1], ht.2⟩
    | write a X => exact ht
    | limits lo hi => exact absurd (List.mem_cons_self ..) (hk lo hi)

theorem foldl_with {St C : Type} (f : C → St → Op → St) (c : C) (l : List Op) (st : St) :
    (l.map fun op => (c, op)).foldl (fun st p => f p.1 st p.2) st = l.foldl (f c) st := by
  induction l generalizing st with
  | nil => rfl
  | cons op t ih => exact ih _

theorem set_old (h ext : Memory K D) (a : ℕ) (ha : a < h.length) (X : List (Row K D)) : (h ++ ext).set a X = h.set a X ++ ext := by
  rw [List.set_append_left _ _ ha]

theorem getD_set_ne (h : Memory K D) (a b : ℕ) (hab : a ≠ b) (X : List (Row K D)) : (h.set a X).getD b [] = h.getD b [] := by
  simp [List.getD_eq_getElem?_getD, List.getElem?_set_ne hab]

/-! ## PDP and d-PDP -/

/-- The object with other contents of `axis_limits`. -/
def HeapPdpCfg.at (cfg : HeapPdpCfg K D) (lim : (Fin D → K) × (Fin D → K)) : HeapPdpCfg K D := { cfg with axisLo := lim.1, axisHi := lim.2 }

theorem Shows.write {n : ℕ} {h : Memory K D} {o : HeapPdp K D} {st : PdpState K D} (hs : Shows n h o st) (a : ℕ) (ha : a < n) (X : List (Row K D)) :
    Shows n (h.set a X) o st :=
  ⟨hs.own, by simpa using hs.here, by rw [getD_set_ne _ _ _ (by have := hs.own; omega)]; exact hs.data, hs.fe, hs.fitted, hs.args⟩

theorem heapSched_eq [PySqrt K] (cfg : HeapPdpCfg K D) (l : List (Sched (PdpOp K D) K D)) (hsafe : ∀ op, Sched.call op ∈ l → cfg.kind.Safe op.vec) (lim : (Fin D → K) × (Fin D → K)) (h ext : Memory K D)
    (hw : OwnWrites h.length l) (o : HeapPdp K D) (st : PdpState K D) (ho : Shows h.length (h ++ ext) o st) :
    ∃ ext' o', heapSched (cfg.at lim) o l (h ++ ext) = (callerAfter l h ++ ext', (cfg.at (limitsAfter lim l), o')) ∧
      Shows h.length (callerAfter l h ++ ext') o' ((callsWith lim l).foldl (fun st p => pdpStep (cfg.at p.1).value st p.2) st) := by
  induction l generalizing lim h ext o st with
  | nil => exact ⟨ext, o, rfl, ho⟩
  | cons x t ih =>
    have hsafe' : ∀ op, Sched.call op ∈ t → cfg.kind.Safe op.vec := fun op h' => hsafe op (List.mem_cons_of_mem _ h')
    have hw' : OwnWrites h.length t := fun a X hm => hw a X (List.mem_cons_of_mem _ hm)
    cases x with
    | call op =>
      have hstep : ∃ e1 o1, heapStep (cfg.at lim) o op (h ++ ext) = (h ++ ext ++ e1, o1) ∧
          Shows h.length (h ++ ext ++ e1) o1 (pdpStep (cfg.at lim).value st op) := by
        obtain ⟨e1, o1, hrun, h1⟩ := C105_history (cfg.at lim) [op] (fun op' h' => by cases List.mem_singleton.mp h'; exact hsafe op (List.mem_cons_self ..)) (h ++ ext) o st ho
        refine ⟨e1, o1, ?_, h1⟩
        simpa only [heapRun, bind, pure] using hrun
      obtain ⟨e1, o1, hrun, h1⟩ := hstep
      rw [List.append_assoc] at hrun h1
      obtain ⟨ext', o', hrun2, h2⟩ := ih hsafe' lim h (ext ++ e1) hw' o1 _ h1
      refine ⟨ext', o', ?_, h2⟩
      simp only [heapSched, bind, hrun, hrun2]
      rfl
    | write a X =>
      have ha : a < h.length := hw a X (List.mem_cons_self ..)
      have h1 := ho.write a ha X
      rw [set_old _ _ _ ha] at h1
      have hlen : (h.set a X).length = h.length := by simp
      obtain ⟨ext', o', hrun, h2⟩ := ih hsafe' lim (h.set a X) ext (by rw [hlen]; exact hw') o st (by rw [hlen]; exact h1)
      rw [hlen] at h2
      refine ⟨ext', o', ?_, h2⟩
      simp only [heapSched, bind, store, set_old _ _ _ ha, hrun]
      rfl
    | limits lo hi =>
      obtain ⟨ext', o', hrun, h2⟩ := ih hsafe' (lo, hi) h ext hw' o st ho
      exact ⟨ext', o', hrun, h2⟩

/-- **C106** (PDP and d-PDP): the caller constructs an object on its array `data`, then calls on the object and the caller's own writes - into the data set or any other of its
arrays, and into the array it passed as `axis_limits` - come in any order.  A last `eval` returns what the calls give on the rows selected at construction time,
each call seeing the contents of `axis_limits` at that moment; and the caller's arrays hold what the caller wrote. -/
theorem C106_pdp [PySqrt K] (cfg : HeapPdpCfg K D) (m : Callable K D) (data : ℕ) (rows : List ℕ) (avgGiven : Bool)
    (hq : avgGiven = true ∨ m.Quiet) (l : List (Sched (PdpOp K D) K D)) (s : Fin D) (xs : List K) (het : Bool) (centering : PyVal) (all vec : Bool)
    (hsafe : ∀ op, Sched.call op ∈ l → cfg.kind.Safe op.vec) (hs : cfg.kind.Safe vec) (h : Memory K D) (hw : OwnWrites h.length l) :
    ∃ ext, (do let self ← heapConstruct m data rows avgGiven
               let q ← heapSched cfg (HeapPdp.init self) l
               let r ← heapEval q.1 q.2 s xs het centering all vec
               return r.2 : HeapM K D (Py (PdpOut K))) h =
      (callerAfter l h ++ ext,
        (let st := (callsWith (cfg.axisLo, cfg.axisHi) l).foldl (fun st p => pdpStep (cfg.at p.1).value st p.2) (PdpState.init (pickRows (h.getD data []) rows))
         pdpEval (cfg.at (limitsAfter (cfg.axisLo, cfg.axisHi) l)).value st s xs het centering all vec).2) := by
  have hc := C105_constructor_partial m data rows avgGiven hq h
  have h0 : Shows h.length (h ++ [pickRows (h.getD data []) rows]) (HeapPdp.init h.length) (PdpState.init (pickRows (h.getD data []) rows)) :=
    ⟨le_refl _, by simp [HeapPdp.init], getD_new h [_] 0, rfl, rfl, rfl⟩
  obtain ⟨ext, o', hrun, ho'⟩ := heapSched_eq cfg l hsafe (cfg.axisLo, cfg.axisHi) h _ hw _ _ h0
  obtain ⟨ext2, o2, hrun2, _⟩ := C105_eval (cfg.at (limitsAfter (cfg.axisLo, cfg.axisHi) l)) s xs het centering all vec hs _ _ _ ho'
  refine ⟨ext ++ ext2, ?_⟩
  have hcfg : cfg.at (cfg.axisLo, cfg.axisHi) = cfg := rfl
  rw [hcfg] at hrun
  simp only [bind, pure, hc, hrun, hrun2]
  simp only [List.append_assoc]

/-- **C106** (PDP and d-PDP) when the caller leaves `axis_limits` alone or passed none: the calls alone decide. -/
theorem C106_pdp_insulated [PySqrt K] (cfg : HeapPdpCfg K D) (m : Callable K D) (data : ℕ) (rows : List ℕ) (avgGiven : Bool)
    (hq : avgGiven = true ∨ m.Quiet) (l : List (Sched (PdpOp K D) K D)) (hk : KeepsLimits l) (s : Fin D) (xs : List K) (het : Bool) (centering : PyVal) (all vec : Bool)
    (hsafe : ∀ op, Sched.call op ∈ l → cfg.kind.Safe op.vec) (hs : cfg.kind.Safe vec) (h : Memory K D) (hw : OwnWrites h.length l) :
    ∃ ext, (do let self ← heapConstruct m data rows avgGiven
               let q ← heapSched cfg (HeapPdp.init self) l
               let r ← heapEval q.1 q.2 s xs het centering all vec
               return r.2 : HeapM K D (Py (PdpOut K))) h =
      (callerAfter l h ++ ext, (pdpEval cfg.value (pdpRun cfg.value (pickRows (h.getD data []) rows) (callsOf l)) s xs het centering all vec).2) := by
  obtain ⟨ext, he⟩ := C106_pdp cfg m data rows avgGiven hq l s xs het centering all vec hsafe hs h hw
  refine ⟨ext, ?_⟩
  rw [he, (keepsLimits _ l hk).1, (keepsLimits _ l hk).2]
  simp only [foldl_with (fun (c : (Fin D → K) × (Fin D → K)) st op => pdpStep (cfg.at c).value st op)]
  rfl

/-! ## ALE and RHALE -/

theorem heapAleSched_eq [PySqrt K] (mk : (Fin D → K) → (Fin D → K) → HeapAleCfg K D) (fitF : (Fin D → K) → (Fin D → K) → Fin D → BinMethod K → Py (AleParams K))
    (Inv : Memory K D → Option (EffRef K D) → Prop) (hf : ∀ lo hi, FitsLike (mk lo hi) (fitF lo hi) Inv) (n : ℕ)
    (hwr : ∀ h e a X, a < n → Inv h e → Inv (h.set a X) e) (l : List (Sched (AleOp K D) K D)) (lim : (Fin D → K) × (Fin D → K)) (h ext : Memory K D)
    (hn : h.length = n) (hw : OwnWrites n l) (o : HeapAle K D) (ho : Inv (h ++ ext) o.eff) :
    ∃ ext' o', heapAleSched mk lim o l (h ++ ext) = (callerAfter l h ++ ext', (limitsAfter lim l, o')) ∧ Inv (callerAfter l h ++ ext') o'.eff ∧
      o'.st = (callsWith lim l).foldl (fun st p => aleStep ((mk p.1.1 p.1.2).pure (fitF p.1.1 p.1.2)) st p.2) o.st := by
  induction l generalizing lim h ext o with
  | nil => exact ⟨ext, o, rfl, ho, rfl⟩
  | cons x t ih =>
    have hw' : OwnWrites n t := fun a X hm => hw a X (List.mem_cons_of_mem _ hm)
    cases x with
    | call op =>
      have hstep : ∃ e1 o1, heapAleStep (mk lim.1 lim.2) o op (h ++ ext) = (h ++ ext ++ e1, o1) ∧
          o1.st = aleStep ((mk lim.1 lim.2).pure (fitF lim.1 lim.2)) o.st op ∧ Inv (h ++ ext ++ e1) o1.eff := by
        obtain ⟨e1, o1, hrun, h1, h2⟩ := heapAleRun_eq (hf lim.1 lim.2) [op] (h ++ ext) o ho
        refine ⟨e1, o1, ?_, h1, h2⟩
        simpa only [heapAleRun, bind, pure] using hrun
      obtain ⟨e1, o1, hrun, h1, h2⟩ := hstep
      rw [List.append_assoc] at hrun h2
      obtain ⟨ext', o', hrun2, hi2, hs2⟩ := ih lim h (ext ++ e1) hn hw' o1 h2
      refine ⟨ext', o', ?_, hi2, ?_⟩
      · simp only [heapAleSched, bind, hrun, hrun2]
        rfl
      · rw [hs2, h1]; rfl
    | write a X =>
      have ha : a < n := hw a X (List.mem_cons_self ..)
      have h1 := hwr _ _ a X ha ho
      rw [set_old _ _ _ (by omega)] at h1
      obtain ⟨ext', o', hrun, h2, hs⟩ := ih lim (h.set a X) ext (by simpa using hn) hw' o h1
      refine ⟨ext', o', ?_, h2, hs⟩
      simp only [heapAleSched, bind, store, set_old h ext a (by omega), hrun]
      rfl
    | limits lo hi =>
      obtain ⟨ext', o', hrun, h2, hs⟩ := ih (lo, hi) h ext hn hw' o ho
      exact ⟨ext', o', hrun, h2, hs⟩

/-- **C106** (ALE): as `C106_pdp`. -/
theorem C106_ale [PySqrt K] (cast : K → K) (m : Callable K D) (data : ℕ) (rows : List ℕ) (avgGiven : Bool) (hq : avgGiven = true ∨ m.Quiet)
    (lim : (Fin D → K) × (Fin D → K)) (l : List (Sched (AleOp K D) K D)) (s : Fin D) (xs : List K) (het : Bool) (centering : PyVal) (h : Memory K D)
    (hw : OwnWrites h.length l) :
    ∃ ext, (do let self ← heapConstruct m data rows avgGiven
               let q ← heapAleSched (heapAleCfg cast m self) lim { eff := none, st := AleState.init } l
               let r ← heapAleEval (heapAleCfg cast m self q.1.1 q.1.2) q.2 s xs het centering
               return r.2 : HeapM K D (Py (List K × Option (List K)))) h =
      (callerAfter l h ++ ext,
        (let cfg := fun lim : (Fin D → K) × (Fin D → K) =>
           aleCfg cast m.value { data := pickRows (h.getD data []) rows, indices := rows, axisLo := lim.1, axisHi := lim.2 }
         (aleEval (cfg (limitsAfter lim l)) ((callsWith lim l).foldl (fun st p => aleStep (cfg p.1) st p.2) AleState.init) s xs het centering).2)) := by
  have hc := C105_constructor_partial m data rows avgGiven hq h
  have hf := ale_fitsLike cast m h.length (pickRows (h.getD data []) rows)
  obtain ⟨ext, o', hrun, hi', hst⟩ := heapAleSched_eq (heapAleCfg cast m h.length) _ _ hf h.length
    (fun h' e a X ha hi => ⟨by simpa using hi.1, by rw [getD_set_ne _ _ _ (by omega)]; exact hi.2.1, hi.2.2⟩) l lim h [pickRows (h.getD data []) rows] rfl hw
    { eff := none, st := AleState.init } ⟨by simp, getD_new h [_] 0, rfl⟩
  obtain ⟨ext2, o2, hrun2, _, _⟩ := heapAleEval_eq (hf (limitsAfter lim l).1 (limitsAfter lim l).2) s xs het centering _ _ hi'
  refine ⟨ext ++ ext2, ?_⟩
  simp only [bind, pure, hc, hrun, hrun2, hst]
  simp only [List.append_assoc]
  rfl

/-- **C106** (RHALE, callables that do not write): as `C106_pdp`; the effects the caller passed are copied as well. -/
theorem C106_rhale [PySqrt K] (m : Callable K D) (jac : Option (JacCallable K D)) (hq : m.Quiet) (hj : ∀ j, jac = some j → j.Quiet) (data : ℕ)
    (rows : List ℕ) (avgGiven : Bool) (given : Option ℕ) (lim : (Fin D → K) × (Fin D → K)) (l : List (Sched (AleOp K D) K D)) (s : Fin D) (xs : List K) (het : Bool)
    (centering : PyVal) (h : Memory K D) (hw : OwnWrites h.length l) :
    ∃ ext, (do let eff ← heapTakeEffects given rows
               let self ← heapConstruct m data rows avgGiven
               let q ← heapAleSched (heapRhaleCfg m jac self) lim { eff := eff, st := AleState.init } l
               let r ← heapAleEval (heapRhaleCfg m jac self q.1.1 q.1.2) q.2 s xs het centering
               return r.2 : HeapM K D (Py (List K × Option (List K)))) h =
      (callerAfter l h ++ ext,
        (let X := pickRows (h.getD data []) rows
         let E := given.map fun a => pickRows (h.getD a []) rows
         let cfg := fun lim : (Fin D → K) × (Fin D → K) =>
           rhaleCfg (rhaleEffects m.value (jac.map JacCallable.value) E X) { data := X, indices := rows, axisLo := lim.1, axisHi := lim.2 }
         (aleEval (cfg (limitsAfter lim l)) ((callsWith lim l).foldl (fun st p => aleStep (cfg p.1) st p.2) AleState.init) s xs het centering).2)) := by
  have hc := C105_constructor_partial m data rows avgGiven (Or.inr hq) h
  have hf := rhale_fitsLike m jac hq hj h.length (pickRows (h.getD data []) rows) (given.map fun a => pickRows (h.getD a []) rows)
  obtain ⟨ext, o', hrun, hi', hst⟩ := heapAleSched_eq (heapRhaleCfg m jac h.length) _ _ hf h.length
    (fun h' e a X ha hi => ⟨by simpa using hi.1, by rw [getD_set_ne _ _ _ (by omega)]; exact hi.2.1, hi.2.2⟩) l lim h [pickRows (h.getD data []) rows] rfl hw
    { eff := (given.map fun a => pickRows (h.getD a []) rows).map EffRef.owned, st := AleState.init } ⟨by simp, getD_new h [_] 0, fun h => by simpa using h, fun r hr => by
      cases given with
      | none => simp at hr
      | some e => simp at hr; subst hr; rfl⟩
  obtain ⟨ext2, o2, hrun2, _, _⟩ := heapAleEval_eq (hf (limitsAfter lim l).1 (limitsAfter lim l).2) s xs het centering _ _ hi'
  refine ⟨ext ++ ext2, ?_⟩
  have he : heapTakeEffects given rows h = (h, (given.map fun a => pickRows (h.getD a []) rows).map EffRef.owned) := by
    cases given <;> rfl
  simp only [bind, pure, he, hc, hrun, hrun2, hst]
  simp only [List.append_assoc]
  rfl

end Effector
