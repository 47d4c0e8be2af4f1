import Verif.Model.RegionalFit
import Verif.Model.NanOutput

/-!
# The search of effector/partitioning.py when the heterogeneity of a region may be NaN

The data are numbers; the heterogeneity function may return NaN (`none`) or raise.  Sums, differences and products propagate NaN, `np.argmax` returns the first NaN
if there is one, and every comparison with NaN is false.
-/

namespace Effector

variable {K : Type} [Field K] [LinearOrder K] {D : ℕ}

/-- `heter_func` with NaN results. -/
abbrev HeterN (K : Type) (D : ℕ) := List (Row K D) → Option (List (Row K D)) → Py (Option K)

/-- `np.argmax` of a flat array: the first NaN, or the first maximum. -/
def nArgmax (l : List (Option K)) : ℕ := if none ∈ l then l.idxOf none else npArgmax (known l)

/-- One entry of `self.splits[1:]` (partitioning.py:253-266). -/
structure NSplit (K : Type) (D : ℕ) where
  feature : Fin D
  position : K
  range : K × K
  candidates : List K
  nofInstances : List ℕ
  typ : FeatType
  heterogeneity : List (Option K)
  splitI : ℕ
  splitJ : ℕ
  wHeterDrop : Option K
  wHeter : Option K

/-- `self.splits`: the root entry and the levels found. -/
structure NSplits (K : Type) (D : ℕ) where
  heterInit : Option K
  nofInit : ℕ
  levels : List (NSplit K D)

/-- partitioning.py:193-199, 239-251. -/
def nHeters (h : HeterN K D) (xs : List (List (Row K D))) (js : Option (List (List (Row K D)))) : Py (List (Option K)) :=
  match js with
  | none => xs.mapM fun x => h x none
  | some js => (xs.zip js).mapM fun p => h p.1 (some p.2)

/-- `heter_drop` (partitioning.py:201-212) with NaN propagation. -/
def nHeterDrops (before sub : List (Option K)) : List (Option K) :=
  List.zipWith nanSub (before.flatMap fun h => [h, h]) sub

/-- `np.sum(a * weights)` with NaN propagation (partitioning.py:218-220). -/
def nWeighted (a : List (Option K)) (w : List K) : Option K := nanSum (List.zipWith (fun (x : Option K) (w : K) => x.map (· * w)) a w)

/-- partitioning.py:177-220: (weighted_heter_drop, weighted_heter) of one candidate. -/
def nEvalCandidate (h : HeterN K D) (xs : List (List (Row K D))) (js : Option (List (List (Row K D))))
    (before : List (Option K)) (f : Fin D) (pos : K) (typ : FeatType) : Py (Option K × Option K) := do
  let xs2 := splitAll xs f pos typ
  let sub ← nHeters h xs2 (js.map fun js => splitAllEff xs js f pos typ)
  let w := splitWeights xs2
  return (nWeighted (nHeterDrops before sub) w, nWeighted sub w)

/-- partitioning.py:158-164: a matrix row padded with `-BIG_M`; writing past the width raises `IndexError`. -/
def nPadRow (w : ℕ) (vals : List (Option K)) : Py (List (Option K)) :=
  if vals.length ≤ w then .ok (vals ++ List.replicate (w - vals.length) (some (-BIG_M))) else .error .indexError

/-- partitioning.py:175-220: the matrix row of one conditioning feature. -/
def nMatrixRow (h : HeterN K D) (w : ℕ) (xs : List (List (Row K D))) (js : Option (List (List (Row K D)))) (before : List (Option K)) (f : Fin D)
    (typ : FeatType) (positions : List K) : Py (List (Option K)) := do
  let vals ← positions.mapM fun pos => nEvalCandidate h xs js before f pos typ
  nPadRow w (vals.map (·.1))

/-- partitioning.py:141-267 `single_level_splits`. -/
def nSingleLevelSplits (cfg : RegCfg K D) (h : HeterN K D) (xs : List (List (Row K D))) (js : Option (List (List (Row K D))))
    (before : List (Option K)) : Py (NSplit K D) := do
  let cands ← candidatePositions cfg
  let w := max cfg.nofSplits cfg.catLimit
  let rows ← (cfg.foc.zip cands).mapM fun p => nMatrixRow h w xs js before p.1 (cfg.types p.1) p.2
  let flat := rows.flatten
  if flat = [] then .error .valueError
  else do
    let a := nArgmax flat                                                          -- line 223
    let i := a / w
    let j := a % w
    let f ← pyIndex cfg.foc i
    let ps ← pyIndex cands i
    let pos ← pyIndex ps j
    let xs2 := splitAll xs f pos (cfg.types f)
    let sub ← nHeters h xs2 (js.map fun js => splitAllEff xs js f pos (cfg.types f))
    let mn ← listMin (col cfg.data f)
    let mx ← listMax (col cfg.data f)
    let e ← nEvalCandidate h xs js before f pos (cfg.types f)
    return { feature := f, position := pos, range := (mn, mx), candidates := ps,
             nofInstances := xs2.map List.length, typ := cfg.types f, heterogeneity := sub,
             splitI := i, splitJ := j, wHeterDrop := e.1, wHeter := e.2 }

/-- partitioning.py:109-135: the loop over the levels, `n` levels to go. -/
def nSearchLoop (cfg : RegCfg K D) (h : HeterN K D) : ℕ → List (List (Row K D)) → Option (List (List (Row K D))) → List (Option K) →
    Py (List (NSplit K D))
  | 0, _, _, _ => .ok []
  | n + 1, xs, js, before =>
    if xs.any (fun x => decide (x.length < cfg.minPoints)) then .ok []
    else do
      let sp ← nSingleLevelSplits cfg h xs js before
      let js' := js.map fun js => splitAllEff xs js sp.feature sp.position sp.typ
      let xs' := splitAll xs sp.feature sp.position sp.typ
      let rest ← nSearchLoop cfg h n xs' js' sp.heterogeneity
      return sp :: rest

/-- partitioning.py:75-139 `search_all_splits`. -/
def nSearchAllSplits (cfg : RegCfg K D) (h : HeterN K D) : Py (Option (NSplits K D)) :=
  if cfg.types cfg.feature = .cat ∧ cfg.splitCat = false then .ok none
  else if cfg.foc.length < cfg.maxLevels then .error .assertionError
  else do
    let h0 ← h cfg.data cfg.dataEffect
    let levels ← nSearchLoop cfg h cfg.maxLevels [cfg.data] (cfg.dataEffect.map fun e => [e]) [h0]
    return if levels = [] then none
      else some { heterInit := h0, nofInit := cfg.data.length, levels := levels }

/-- `(a - b) / a > thres`; false with a NaN (partitioning.py:286-287). -/
def nDropExceeds (thres : K) (a b : Option K) : Bool :=
  match a, b with
  | some a, some b => dropExceeds thres a b
  | _, _ => false

/-- `split_valid` (partitioning.py:284-287). -/
def nSplitValid (thres : K) : List (Option K) → List Bool
  | a :: b :: t => nDropExceeds thres a b :: nSplitValid thres (b :: t)
  | _ => []

/-- partitioning.py:269-308 `choose_important_splits`. -/
def nChooseImportantSplits (cfg : RegCfg K D) (splits : Option (NSplits K D)) : List (NSplit K D) :=
  match splits with
  | none => []
  | some s =>
    if s.heterInit = some BIG_M then []
    else if nanLt s.heterInit (some cfg.smallEnough) then []
    else
      let valid := nSplitValid cfg.dropThres (s.heterInit :: s.levels.map (·.wHeter))
      if valid.count true = 0 then []
      else if valid.count true = valid.length then s.levels
      else
        let firstNeg := valid.idxOf false
        if firstNeg = 0 then [] else s.levels.take firstNeg

/-- What `splits_to_tree` reads of a split, the heterogeneities left out (0). -/
def NSplit.plain (s : NSplit K D) : Split K D :=
  { feature := s.feature, position := s.position, range := s.range, candidates := s.candidates, nofInstances := s.nofInstances, typ := s.typ,
    heterogeneity := s.heterogeneity.map fun _ => 0, splitI := s.splitI, splitJ := s.splitJ, wHeterDrop := 0, wHeter := 0 }

/-- partitioning.py:337-439 `splits_to_tree(only_important)`, without the heterogeneities of the nodes. -/
def nSplitsToTree (cfg : RegCfg K D) (posText : Fin D → K → String) (splits : Option (NSplits K D)) (onlyImportant : Bool) :
    Py (Option (List (Node K D))) :=
  match splits with
  | none => .ok none
  | some s => do
    let t ← addLevels { names := cfg.names, posText := posText } cfg.dataEffect.isSome s.nofInit 1
      [rootNode cfg { heterInit := 0, nofInit := s.nofInit, levels := [] }]
      [{ name := cfg.names cfg.feature, rows := cfg.data, effects := cfg.dataEffect }]
      ((if onlyImportant then nChooseImportantSplits cfg splits else s.levels).map NSplit.plain)
    return some t

/-- regional_effect_pdp.py:38-63 `_create_heterogeneity_function` for a model that may return NaN. -/
def nPdpHeter [PySqrt K] (choice : ℕ → ℕ → List ℕ) (cast : K → K) (kind : NPdpKind K D) (lo hi : Fin D → K)
    (foi : Fin D) (minPoints : ℕ) (centering : PyVal) (nof : PyVal) (points : ℕ) (vec : Bool)
    (data : List (Row K D)) : Py (Option K) :=
  if data.length < minPoints then .ok (some BIG_M)
  else do
    let b ← Base.init choice data nof (some (lo, hi))
    let cfg : NPdpCfg K D := { cast := cast, kind := kind, axisLo := b.axisLo, axisHi := b.axisHi }
    match nPdpFit cfg (NPdpState.init b.data) (.int (foi : ℕ)) centering points vec with
    | (_, .error _) => return some BIG_M
    | (st, .ok ()) => do
      let mn ← listMin (col data foi)
      let mx ← listMax (col data foi)
      match (nPdpEval cfg st foi (linspace mn mx 10) true (.bool false) false vec).2 with
      | .ok (.meanStd _ z) => return nMean z
      | _ => return some BIG_M

/-- regional_effect_pdp.py:96-109 with regional_effect.py:88-132: fitting one feature of a `RegionalPDP` or `RegionalDerPDP` object `o` whose model is `kind` (the
model in `o` is not used); the important splits, the full tree and the pruned tree that are stored. -/
def nRegionalPdpFitOne [PySqrt K] (o : RegionalObj K D) (kind : NPdpKind K D) (kw : FitKw K D) (f : Fin D) :
    Py (List (NSplit K D) × Option (List (Node K D)) × Option (List (Node K D))) := do
  let r := regionsOf o.cfg (kw.toArgs o) f
  let sp ← nSearchAllSplits r fun x _ =>
    nPdpHeter o.cfg.bb.choice o.cfg.bb.cast kind o.axisLo o.axisHi f kw.minPoints kw.centering kw.nof kw.points kw.vec x
  let full ← nSplitsToTree r (posTextOf o.cfg.fmt none) sp false
  let pruned ← nSplitsToTree r (posTextOf o.cfg.fmt none) sp true
  return (nChooseImportantSplits r sp, full, pruned)

end Effector
