import Verif.Props.P2
import Mathlib.Order.WithBot
import Mathlib.Tactic.Ring
import Mathlib.Tactic.LinearCombination
import Mathlib.Tactic.NormNum
/-!
# C137: quantiles in other units

What is measured in one unit may be given to an accumulator in another (`a * x + b`, with `a > 0`).  The specification is
`conv`: the conversion.
-/
set_option linter.unusedSectionVars false
namespace Verif.Quant

open Verif.Accum Verif.Bis
open scoped List

variable {K : Type} [Field K] [LinearOrder K] [IsStrictOrderedRing K] [FloorRing K]

/-- The conversion. -/
def conv (a b x : K) : K := a * x + b

/-- The conversion, of numbers that may be infinite. -/
def convExt (a b : K) (x : Ext K) : Ext K := WithBot.map (WithTop.map (conv a b)) x

/-- The same uses, with values in the other unit. -/
def Op.conv (a b : K) : Op K → Op K
  | .add v rnd => .add (Quant.conv a b v) rnd
  | .quantile q => .quantile q
  | .iter => .iter

variable {a b : K}

theorem conv_lt (ha : 0 < a) (x y : K) : conv a b x < conv a b y ↔ x < y := by
  simp [conv, ha]

theorem conv_le (ha : 0 < a) (x y : K) : conv a b x ≤ conv a b y ↔ x ≤ y := by
  simp [conv, ha]

theorem convExt_lt (ha : 0 < a) (x y : Ext K) : convExt a b x < convExt a b y ↔ x < y := by
  have h1 : StrictMono (conv a b) := fun x y h => (conv_lt ha x y).2 h
  have h2 : StrictMono (WithTop.map (conv a b)) := WithTop.strictMono_map_iff.2 h1
  exact (WithBot.strictMono_map_iff.2 h2).lt_iff_lt

theorem convExt_fin (x : K) : convExt a b (fin x) = fin (conv a b x) := rfl

/-- Count, minimum and maximum. -/
def Base.conv (a b : K) (s : Base K) : Base K := ⟨s.count, convExt a b s.min, convExt a b s.max⟩

/-- A reservoir. -/
def Res.conv (a b : K) (r : Res K) : Res K := ⟨r.base.conv a b, r.data.map (Quant.conv a b), r.isSorted, r.cap⟩

theorem baseAdd_conv (ha : 0 < a) (s : Base K) (v : K) : baseAdd (s.conv a b) (conv a b v) = (baseAdd s v).conv a b := by
  unfold baseAdd Base.conv
  simp only [gt_iff_lt, ← convExt_fin, convExt_lt ha]
  split <;> split <;> rfl

theorem sort_conv (ha : 0 < a) (l : List K) : (l.map (conv a b)).mergeSort (fun x y => decide (x ≤ y)) =
    (l.mergeSort fun x y => decide (x ≤ y)).map (conv a b) :=
  (List.map_mergeSort fun x _ y _ => by simp [conv_le ha]).symm

theorem sortData_conv (ha : 0 < a) (r : Res K) : sortData (r.conv a b) = (sortData r).conv a b := by
  unfold sortData
  simp only [show (r.conv a b).isSorted = r.isSorted from rfl]
  split
  · rfl
  · simp [Res.conv, sort_conv ha]

theorem resAdd_conv {store : K → K} (hs : ∀ x, store (conv a b x) = conv a b (store x)) (ha : 0 < a) (r : Res K) (v : K) (rnd : Nat) :
    resAdd store (r.conv a b) (conv a b v) rnd = (resAdd store r v rnd).map (Res.conv a b) := by
  unfold resAdd
  simp only [show (r.conv a b).base.count = r.base.count from rfl, show (r.conv a b).cap = r.cap from rfl,
    show (r.conv a b).data = r.data.map (conv a b) from rfl, List.length_map, hs,
    show (r.conv a b).base = r.base.conv a b from rfl, baseAdd_conv ha]
  by_cases h1 : below r.base.count r.cap
  · simp [h1, Except.map, Res.conv, show (r.base.conv a b).count = r.base.count from rfl]
  · by_cases h2 : below rnd r.cap
    · by_cases h3 : rnd < r.data.length
      · simp [h1, h2, h3, Except.map, Res.conv, show (r.base.conv a b).count = r.base.count from rfl]
      · simp [h1, h2, h3, Except.map, show (r.base.conv a b).count = r.base.count from rfl]
    · simp [h1, h2, Except.map, show (r.base.conv a b).count = r.base.count from rfl]

theorem item_conv (l : List K) (i : Int) : item (l.map (conv a b)) i = (item l i).map (conv a b) := by
  unfold item
  simp only [List.length_map, List.getElem?_map]
  generalize (if i < 0 then i + (l.length : Int) else i) = j
  split
  · rfl
  · cases l[j.toNat]? <;> rfl

theorem resQuantile_conv (ha : 0 < a) (r : Res K) (q : K) :
    resQuantile (r.conv a b) q = ((resQuantile r q).1.map (conv a b), (resQuantile r q).2.conv a b) := by
  unfold resQuantile
  split
  · rfl
  · rw [sortData_conv ha]
    dsimp only
    simp only [show ((sortData r).conv a b).data = (sortData r).data.map (conv a b) from rfl, List.length_map, item_conv]
    refine Prod.ext ?_ rfl
    dsimp only
    generalize q * (((sortData r).data.length : K) - 1) = idx
    split
    · rfl
    · rename_i hne
      have hc : ((⌈idx⌉ : Int) : K) = (⌊idx⌋ : K) + 1 := by
        have h1 : ⌈idx⌉ ≤ ⌊idx⌋ + 1 := Int.ceil_le_floor_add_one idx
        have h2 : ⌊idx⌋ ≤ ⌈idx⌉ := Int.floor_le_ceil idx
        have : ⌈idx⌉ = ⌊idx⌋ + 1 := by omega
        rw [this]; push_cast; ring
      cases item (sortData r).data ⌊idx⌋ with
      | error e => rfl
      | ok x =>
        cases item (sortData r).data ⌈idx⌉ with
        | error e => rfl
        | ok y =>
          show Except.ok (conv a b x * ((⌈idx⌉ : K) - idx) + conv a b y * (idx - (⌊idx⌋ : K))) = Except.ok (conv a b _)
          congr 1
          unfold conv
          rw [hc]
          ring

theorem step_conv {store : K → K} (hs : ∀ x, store (conv a b x) = conv a b (store x)) (ha : 0 < a) (r : Res K) (o : Op K) :
    step store (r.conv a b) (o.conv a b) = (step store r o).conv a b := by
  cases o with
  | add v rnd =>
    simp only [step, Op.conv]
    rw [resAdd_conv hs ha]
    cases resAdd store r v rnd <;> rfl
  | quantile q => simp [step, Op.conv, resQuantile_conv ha]
  | iter => simp [step, Op.conv, resIter, sortData_conv ha]

theorem run_conv {store : K → K} (hs : ∀ x, store (conv a b x) = conv a b (store x)) (ha : 0 < a) (cap : Option Int) (ops : List (Op K)) :
    run store cap (ops.map (Op.conv a b)) = (run store cap ops).conv a b := by
  unfold run
  have : ∀ r : Res K, (ops.map (Op.conv a b)).foldl (step store) (r.conv a b) = (ops.foldl (step store) r).conv a b := by
    induction ops with
    | nil => intro r; rfl
    | cons o ops ih => intro r; rw [List.map_cons, List.foldl_cons, List.foldl_cons, step_conv hs ha, ih]
  exact this (resInit cap)

/-- **C137**: a reservoir given the values in another unit, used in the same way and with the same random draws, reports its quantiles,
minimum and maximum in that unit, and the same count; what raises, raises the same.  (`store`, the rounding of stored values, is one
that does not depend on the unit, such as none.) -/
theorem C137_reservoir (store : K → K) (hs : ∀ x, store (conv a b x) = conv a b (store x)) (ha : 0 < a) (cap : Option Int)
    (ops : List (Op K)) (q : K) :
    let r := run store cap ops
    let r' := run store cap (ops.map (Op.conv a b))
    (resQuantile r' q).1 = (resQuantile r q).1.map (conv a b) ∧
    median r' = (median r).map (conv a b) ∧
    r'.base.count = r.base.count ∧ r'.base.min = convExt a b r.base.min ∧ r'.base.max = convExt a b r.base.max := by
  dsimp only
  rw [run_conv hs ha]
  exact ⟨by rw [resQuantile_conv ha], by rw [median, median, resQuantile_conv ha], rfl, rfl, rfl⟩

theorem readAll_conv (ha : 0 < a) (r : Res K) (qs : List K) :
    readAll resQuantile (r.conv a b) qs = ((readAll resQuantile r qs).1.map (List.map (conv a b)), (readAll resQuantile r qs).2.conv a b) := by
  induction qs generalizing r with
  | nil => rfl
  | cons q qs ih =>
    simp only [readAll]
    rw [resQuantile_conv ha]
    dsimp only
    cases (resQuantile r q).1 with
    | error e => rfl
    | ok v =>
      simp only [Except.map]
      rw [ih]
      dsimp only
      cases (readAll resQuantile (resQuantile r q).2 qs).1 <;> rfl

theorem readAll_length (r : Res K) (qs vs : List K) (h : (readAll resQuantile r qs).1 = .ok vs) : vs.length = qs.length := by
  induction qs generalizing r vs with
  | nil => cases h; rfl
  | cons q qs ih =>
    simp only [readAll] at h
    cases h1 : (resQuantile r q).1 with
    | error e => rw [h1] at h; cases h
    | ok v =>
      rw [h1] at h
      dsimp only at h
      cases h2 : (readAll resQuantile (resQuantile r q).2 qs).1 with
      | error e => rw [h2] at h; cases h
      | ok vs' =>
        rw [h2] at h
        cases h
        simp [ih _ _ h2]

/-- **C137**: the interquartile range is a difference of values and is only multiplied; the trimean is converted. -/
theorem C137_spread (store : K → K) (hs : ∀ x, store (conv a b x) = conv a b (store x)) (ha : 0 < a) (cap : Option Int)
    (ops : List (Op K)) :
    let r := run store cap ops
    let r' := run store cap (ops.map (Op.conv a b))
    iqr r' = (iqr r).map (a * ·) ∧ trimean r' = (trimean r).map (conv a b) := by
  dsimp only
  rw [run_conv hs ha]
  generalize run store cap ops = r
  constructor
  · unfold iqr
    rw [readAll_conv ha]
    dsimp only
    cases h : (readAll resQuantile r [3 / 4, 1 / 4]).1 with
    | error e => rfl
    | ok vs =>
      have hl := readAll_length _ _ _ h
      match vs, hl with
      | [x, y], _ =>
        show Except.ok (conv a b x - conv a b y) = Except.ok (a * (x - y))
        congr 1
        unfold conv
        ring
  · unfold trimean quartiles
    rw [readAll_conv ha]
    dsimp only
    cases h : (readAll resQuantile r [1 / 4, 1 / 2, 3 / 4]).1 with
    | error e => rfl
    | ok vs =>
      have hl := readAll_length _ _ _ h
      match vs, hl with
      | [x, y, z], _ =>
        show Except.ok ((conv a b x + 2 * conv a b y + conv a b z) / 4) = Except.ok (conv a b ((x + 2 * y + z) / 4))
        congr 1
        unfold conv
        ring

theorem interp_mirror {l : List K} {x v : K} (h : Interp l x v) :
    Interp (l.reverse.map (conv a b)) ((l.length : K) - 1 - x) (conv a b v) := by
  obtain ⟨i, t, y, z, h0, h1, rfl, hy, hz, rfl⟩ := h
  obtain ⟨hi, ey⟩ := List.getElem?_eq_some_iff.1 hy
  have get : ∀ j, j < l.length → (l.reverse.map (conv a b))[l.length - 1 - j]? = l[j]?.map (conv a b) := by
    intro j hj
    rw [List.getElem?_map, List.getElem?_reverse (by omega), show l.length - 1 - (l.length - 1 - j) = j by omega]
  rcases eq_or_lt_of_le h0 with rfl | hpos
  · refine ⟨l.length - 1 - i, 0, conv a b y, conv a b z, le_refl _, h1, ?_, by rw [get i hi, hy]; rfl, .inl rfl, by unfold conv; ring⟩
    have : l.length - 1 - i + (i + 1) = l.length := by omega
    have : ((l.length - 1 - i : Nat) : K) + (i + 1) = l.length := by exact_mod_cast this
    linear_combination -this
  · have hz : l[i + 1]? = some z := by rcases hz with hz | hz; · linarith
                                       · exact hz
    obtain ⟨hi', ez⟩ := List.getElem?_eq_some_iff.1 hz
    refine ⟨l.length - 1 - (i + 1), 1 - t, conv a b z, conv a b y, by linarith, by linarith, ?_, by rw [get _ hi', hz]; rfl,
      .inr ?_, by unfold conv; ring⟩
    · have : l.length - 1 - (i + 1) + (i + 2) = l.length := by omega
      have : ((l.length - 1 - (i + 1) : Nat) : K) + (i + 2) = l.length := by exact_mod_cast this
      linear_combination -this
    · rw [show l.length - 1 - (i + 1) + 1 = l.length - 1 - i by omega, get i hi, hy]; rfl

theorem added_conv (ops : List (Op K)) : added (ops.map (Op.conv a b)) = (added ops).map (conv a b) := by
  induction ops with
  | nil => rfl
  | cons o ops ih => cases o <;> simp [added, Op.conv, ih]

/-- **C137**: in a unit that points the other way (`a < 0`) the quantile for `q` is the one for `1 - q`, of an accumulator without a
limit on what it stores. -/
theorem C137_mirror (store : K → K) (hs : ∀ x, store (conv a b x) = conv a b (store x)) (ha : a < 0) (ops : List (Op K))
    (hne : added ops ≠ []) (q : K) (h0 : 0 < q) (h1 : q < 1) :
    (resQuantile (run store none (ops.map (Op.conv a b))) q).1 = (resQuantile (run store none ops) (1 - q)).1.map (conv a b) := by
  obtain ⟨v, hv, hi⟩ := C50_quantile store ops hne (1 - q) (by linarith) (by linarith)
  obtain ⟨w, hw, hj⟩ := C50_quantile store (ops.map (Op.conv a b)) (by rw [added_conv]; simpa using hne) q h0 h1
  rw [hv, hw]
  show Except.ok w = Except.ok (conv a b v)
  congr 1
  have hm := interp_mirror (a := a) (b := b) hi
  have hsort : (sorted ((added ops).map store)).reverse.map (conv a b) = sorted ((added (ops.map (Op.conv a b))).map store) := by
    apply eq_sorted
    · rw [List.pairwise_map, List.pairwise_reverse]
      refine (sorted_pairwise _).imp fun h => ?_
      unfold conv
      linarith [mul_le_mul_of_nonpos_left h (le_of_lt ha)]
    · rw [added_conv, List.map_map, show store ∘ conv a b = conv a b ∘ store from funext hs, ← List.map_map]
      exact ((List.reverse_perm _).trans (sorted_perm _)).map _
  have hlen : (sorted ((added ops).map store)).length = (added ops).length := by
    rw [(sorted_perm _).length_eq, List.length_map]
  rw [hsort, hlen] at hm
  rw [added_conv, List.length_map, ← added_conv] at hj
  refine interp_unique (sorted_pairwise _) hj ?_
  convert hm using 1
  ring

/-- A histogram with its bounds in the other unit. -/
def histConv (a b : K) (h : Hist K) : Hist K := ⟨h.bounds.map (convExt a b), h.buckets⟩

theorem convExt_le (ha : 0 < a) (x y : Ext K) : convExt a b x ≤ convExt a b y ↔ x ≤ y := by
  rw [← not_lt, ← not_lt, convExt_lt ha]

theorem convExt_inj (ha : 0 < a) : Function.Injective (convExt a b) := by
  intro x y h
  exact le_antisymm ((convExt_le ha x y).1 (le_of_eq h)) ((convExt_le ha y x).1 (le_of_eq h.symm))

theorem ranges_map {X Y : Type} (f : X → Y) (l : List X) : ranges (l.map f) = (ranges l).map fun p => (f p.1, f p.2) := by
  unfold ranges
  rw [← List.map_tail, List.zip_map]
  rfl

theorem histInit_conv (ha : 0 < a) (bounds : List (Ext K)) : histInit (bounds.map (convExt a b)) = histConv a b (histInit bounds) := by
  have h : (posInf :: negInf :: bounds.map (convExt a b)).dedup.mergeSort (fun x y => decide (x ≤ y)) =
      ((posInf :: negInf :: bounds).dedup.mergeSort fun x y => decide (x ≤ y)).map (convExt a b) := by
    rw [List.map_mergeSort (s := fun x y => decide (x ≤ y)) (fun x _ y _ => by simp [convExt_le ha]),
      ← List.dedup_map_of_injective (convExt_inj ha)]
    rfl
  unfold histInit histConv
  dsimp only
  rw [h, ranges_map, List.length_map]

theorem rightLoop_map {X Y : Type} (f : X → Y) (lt : Y → Bool) (l : List X) (lo hi : Nat) :
    rightLoop lt (l.map f) lo hi = rightLoop (fun x => lt (f x)) l lo hi := by
  induction lo, hi using rightLoop.induct (fun x => lt (f x)) l with
  | case1 lo hi h mid hm => rw [rightLoop, rightLoop]; rw [show l[mid]? = l[(lo + hi) / 2]? from rfl] at hm; simp [h, hm]
  | case2 lo hi h mid y hm hy ih => rw [rightLoop, rightLoop]; simp_all [mid]
  | case3 lo hi h mid y hm hy ih => rw [rightLoop, rightLoop]; simp_all [mid]
  | case4 lo hi h => rw [rightLoop, rightLoop]; simp [h]

theorem right_conv (ha : 0 < a) (v : Option (Ext K)) (l : List (Ext K)) :
    right (histLt (v.map (convExt a b))) (l.map (convExt a b)) = right (histLt v) l := by
  unfold right
  rw [rightLoop_map, List.length_map]
  congr 1
  funext y
  cases v with
  | none => rfl
  | some x => simp [histLt, convExt_lt ha]

theorem histAdd_conv (ha : 0 < a) (h : Hist K) (v : Option (Ext K)) :
    histAdd (histConv a b h) (v.map (convExt a b)) = (histAdd h v).map (histConv a b) := by
  unfold histAdd
  simp only [histConv, right_conv ha]
  cases h.buckets[right (histLt v) h.bounds - 1]? <;> rfl

/-- **C137**: a histogram with bounds and values in another unit counts the same. -/
theorem C137_histogram (ha : 0 < a) (bounds : List (Ext K)) (vals : List (Option (Ext K))) :
    (histRun (histInit (bounds.map (convExt a b))) (vals.map (Option.map (convExt a b)))).map results =
      (histRun (histInit bounds) vals).map fun h => (results h).map fun p => ((convExt a b p.1.1, convExt a b p.1.2), p.2) := by
  have : ∀ h : Hist K, histRun (histConv a b h) (vals.map (Option.map (convExt a b))) = (histRun h vals).map (histConv a b) := by
    induction vals with
    | nil => intro h; rfl
    | cons v vals ih =>
      intro h
      simp only [List.map_cons, histRun]
      rw [histAdd_conv ha]
      cases histAdd h v with
      | none => rfl
      | some h' => exact ih h'
  rw [histInit_conv ha, this]
  cases histRun (histInit bounds) vals with
  | none => rfl
  | some h =>
    simp only [Option.map_some, results, histConv]
    rw [ranges_map, List.zip_map_left]
    rfl

/-- A case: temperatures, from Celsius to Fahrenheit: `conv (9 / 5) 32`. -/
example : conv (9 / 5 : ℚ) 32 100 = 212 ∧ Op.conv (9 / 5 : ℚ) 32 (.add 100 3) = .add 212 3 := by
  constructor
  · norm_num [conv]
  · norm_num [conv, Op.conv]

end Verif.Quant

namespace Verif.P2

open Verif.Quant

variable {K : Type} [Field K] [LinearOrder K] [IsStrictOrderedRing K] [FloorRing K] {a b : K}

/-- A marker in the other unit. -/
def Marker.conv (a b : K) (m : Marker K) : Marker K := ⟨m.q, m.pos, Quant.conv a b m.height⟩

theorem bumpLast_conv (ms : List (Marker K)) : bumpLast (ms.map (Marker.conv a b)) = (bumpLast ms).map (Marker.conv a b) := by
  induction ms with
  | nil => rfl
  | cons m ms ih =>
    cases ms with
    | nil => rfl
    | cons n ms => simp only [List.map_cons, bumpLast] at ih ⊢; rw [ih]

theorem raiseLast_conv (v : K) (ms : List (Marker K)) :
    raiseLast (conv a b v) (ms.map (Marker.conv a b)) = (raiseLast v ms).map (Marker.conv a b) := by
  induction ms with
  | nil => rfl
  | cons m ms ih =>
    cases ms with
    | nil => rfl
    | cons n ms => simp only [List.map_cons, raiseLast] at ih ⊢; rw [ih]

theorem extremes_conv (ha : 0 < a) (v : K) (ms : List (Marker K)) :
    extremes (conv a b v) (ms.map (Marker.conv a b)) = (extremes v ms).map (Marker.conv a b) := by
  cases ms with
  | nil => rfl
  | cons m rest =>
    have h : ((Marker.conv a b m) :: rest.map (Marker.conv a b)).getLast? = (m :: rest).getLast?.map (Marker.conv a b) := by
      rw [← List.map_cons, List.getLast?_map]
    simp only [List.map_cons, extremes]
    rw [h]
    simp only [show (m.conv a b).height = conv a b m.height from rfl, conv_lt ha]
    split
    · rfl
    · cases (m :: rest).getLast? with
      | none => rfl
      | some l =>
        simp only [Option.map_some, show (l.conv a b).height = conv a b l.height from rfl, gt_iff_lt, conv_lt ha]
        split
        · rw [← List.map_cons, raiseLast_conv]
        · rfl

theorem backPass_conv (ha : 0 < a) (v : K) (ms : List (Marker K)) :
    backPass (conv a b v) (ms.map (Marker.conv a b)) = (backPass v ms).map (Marker.conv a b) := by
  induction ms with
  | nil => rfl
  | cons m ms ih =>
    cases ms with
    | nil => rfl
    | cons n ms =>
      simp only [List.map_cons, backPass] at ih ⊢
      rw [ih]
      cases backPass v (n :: ms) with
      | nil => rfl
      | cons x xs =>
        simp only [List.map_cons, show (m.conv a b).height = conv a b m.height from rfl, conv_le ha,
          show (m.conv a b).pos = m.pos from rfl, show (x.conv a b).pos = x.pos from rfl]
        split
        · split <;> rfl
        · rfl

theorem pdiv_mul (a x y : K) : pdiv (a * x) y = (pdiv x y).map (a * ·) := by
  unfold pdiv
  split
  · rfl
  · simp [mul_div_assoc]

theorem move_conv (ha : 0 < a) (d : Int) (l c r : Marker K) :
    move d (l.conv a b) (c.conv a b) (r.conv a b) = (move d l c r).map (Marker.conv a b) := by
  have hd : ∀ x y : K, conv a b x - conv a b y = a * (x - y) := fun x y => by unfold conv; ring
  unfold move
  simp only [show ∀ m : Marker K, (m.conv a b).height = conv a b m.height from fun _ => rfl,
    show ∀ m : Marker K, (m.conv a b).pos = m.pos from fun _ => rfl, hd, mul_left_comm _ a, pdiv_mul a]
  cases pdiv (d : K) ((r.pos : K) - l.pos) with
  | none => rfl
  | some A =>
    cases pdiv (((c.pos : K) - l.pos + d) * (r.height - c.height)) ((r.pos : K) - c.pos) with
    | none => rfl
    | some B =>
      cases pdiv (((r.pos : K) - c.pos - d) * (c.height - l.height)) ((c.pos : K) - l.pos) with
      | none => rfl
      | some E =>
        have e : conv a b c.height + A * (a * B + a * E) = conv a b (c.height + A * (B + E)) := by unfold conv; ring
        simp only [Option.bind_eq_bind, Option.bind_some, Option.map_some, e, conv_lt ha]
        split
        · rfl
        · split
          · cases pdiv (r.height - c.height) ((r.pos : K) - c.pos) with
            | none => rfl
            | some x =>
              simp only [Option.map_some, Option.bind_some, Marker.conv]
              congr 2
              unfold conv; ring
          · cases pdiv (l.height - c.height) ((l.pos : K) - c.pos) with
            | none => rfl
            | some x =>
              simp only [Option.map_some, Option.bind_some, Marker.conv]
              congr 2
              unfold conv; ring

theorem adjust_conv (ha : 0 < a) (prev : Int) (l c r : Marker K) :
    adjust prev (l.conv a b) (c.conv a b) (r.conv a b) = (adjust prev l c r).map (Marker.conv a b) := by
  unfold adjust
  simp only [show ∀ m : Marker K, (m.conv a b).q = m.q from fun _ => rfl,
    show ∀ m : Marker K, (m.conv a b).pos = m.pos from fun _ => rfl, move_conv ha]
  split
  · rfl
  · split
    · split
      · rfl
      · rfl
    · split
      · rfl
      · rfl

theorem quadPass_conv (ha : 0 < a) (prev : Int) (l : Marker K) (ms : List (Marker K)) :
    quadPass prev (l.conv a b) (ms.map (Marker.conv a b)) = (quadPass prev l ms).map (List.map (Marker.conv a b)) := by
  induction ms generalizing l with
  | nil => rfl
  | cons c ms ih =>
    cases ms with
    | nil => rfl
    | cons r ms =>
      simp only [List.map_cons, quadPass]
      rw [adjust_conv ha]
      cases adjust prev l c r with
      | none => rfl
      | some c' =>
        have := ih c'
        rw [List.map_cons] at this
        simp only [Option.map_some, Option.bind_eq_bind, Option.bind_some, this]
        cases quadPass prev c' (r :: ms) <;> rfl

theorem add_conv (ha : 0 < a) (ms : List (Marker K)) (v : K) :
    add (ms.map (Marker.conv a b)) (conv a b v) = (add ms v).map (List.map (Marker.conv a b)) := by
  unfold add
  rw [List.getLast?_map]
  cases ms.getLast? with
  | none => rfl
  | some l =>
    simp only [Option.map_some]
    rw [bumpLast_conv, extremes_conv ha]
    cases extremes v (bumpLast ms) with
    | nil => rfl
    | cons m rest =>
      simp only [List.map_cons]
      rw [backPass_conv ha, show (l.conv a b).pos = l.pos from rfl, quadPass_conv ha]
      cases quadPass l.pos m (backPass v rest) <;> rfl

theorem addAll_conv (ha : 0 < a) (vs : List K) (ms : List (Marker K)) :
    addAll (ms.map (Marker.conv a b)) (vs.map (conv a b)) = (addAll ms vs).map (List.map (Marker.conv a b)) := by
  induction vs generalizing ms with
  | nil => rfl
  | cons v vs ih =>
    simp only [List.map_cons, addAll]
    rw [add_conv ha]
    cases add ms v with
    | none => rfl
    | some ms' => exact ih ms'

theorem initial_conv (ha : 0 < a) (qps data : List K) :
    initial qps (data.map (conv a b)) = (initial qps data).map (Marker.conv a b) := by
  unfold initial
  dsimp only
  rw [← List.map_take, sort_conv ha]
  apply List.ext_getElem
  · simp
  · intro i h1 h2
    simp [Marker.conv]

theorem make_conv (ha : 0 < a) (points data : List K) :
    make points (data.map (conv a b)) = (make points data).map (List.map (Marker.conv a b)) := by
  unfold make
  dsimp only
  rw [List.length_map]
  split
  · rfl
  · rw [initial_conv ha, ← List.map_drop, addAll_conv ha]

/-- **C137**: a P2 estimator given the values in another unit gives its estimates in that unit. -/
theorem C137_p2 (ha : 0 < a) (points data vals : List K) :
    ((make points (data.map (conv a b))).bind fun ms => addAll ms (vals.map (conv a b))).map getQuantiles =
      ((make points data).bind fun ms => addAll ms vals).map fun ms => (getQuantiles ms).map fun p => (p.1, conv a b p.2) := by
  rw [make_conv ha]
  cases make points data with
  | none => rfl
  | some ms =>
    simp only [Option.map_some, Option.bind_some]
    rw [addAll_conv ha]
    cases addAll ms vals with
    | none => rfl
    | some ms' => simp [getQuantiles, Marker.conv, Function.comp_def]

/-- The accumulator in the other unit. -/
def Acc.conv (a b : K) (s : Acc K) : Acc K := ⟨s.base.conv a b, s.points, s.tmp.conv a b, s.est.map (List.map (Marker.conv a b))⟩

/-- The same uses, with values in the other unit. -/
def AccOp.conv (a b : K) : AccOp K → AccOp K
  | .add v => .add (Quant.conv a b v)
  | .read q => .read q

theorem accAdd_conv {store : K → K} (hs : ∀ x, store (conv a b x) = conv a b (store x)) (ha : 0 < a) (s : Acc K) (v : K) :
    accAdd store (s.conv a b) (conv a b v) = (accAdd store s v).map (Acc.conv a b) := by
  obtain ⟨bs, ps, tmp, est⟩ := s
  cases est with
  | none =>
    simp only [accAdd, Acc.conv, Option.map_none]
    rw [resAdd_conv hs ha]
    cases resAdd store tmp v 0 with
    | error e => rfl
    | ok t =>
      simp only [Except.map, show (t.conv a b).base.count = t.base.count from rfl,
        show (t.conv a b).data = t.data.map (conv a b) from rfl]
      split
      · rw [make_conv ha]
        cases make ps t.data <;> rfl
      · rfl
  | some e =>
    simp only [accAdd, Acc.conv, Option.map_some]
    rw [add_conv ha, baseAdd_conv ha]
    cases add e v <;> rfl

theorem getQuantile_conv (ms : List (Marker K)) (q : K) : getQuantile (ms.map (Marker.conv a b)) q = (getQuantile ms q).map (conv a b) := by
  unfold getQuantile
  rw [List.find?_map]
  simp only [Function.comp_def, show ∀ m : Marker K, (m.conv a b).q = m.q from fun _ => rfl]
  cases ms.find? _ <;> rfl

theorem accQuantile_conv (ha : 0 < a) (s : Acc K) (q : K) :
    accQuantile (s.conv a b) q = ((accQuantile s q).1.map (conv a b), (accQuantile s q).2.conv a b) := by
  obtain ⟨bs, ps, tmp, est⟩ := s
  cases est with
  | none =>
    simp only [accQuantile, Acc.conv, Option.map_none]
    rw [resQuantile_conv ha]
  | some e =>
    simp only [accQuantile, Acc.conv, Option.map_some]
    rw [getQuantile_conv]
    cases getQuantile e q <;> rfl

theorem accRun_conv {store : K → K} (hs : ∀ x, store (conv a b x) = conv a b (store x)) (ha : 0 < a) (ops : List (AccOp K)) (s : Acc K) :
    accRun store (s.conv a b) (ops.map (AccOp.conv a b)) = (accRun store s ops).map (Acc.conv a b) := by
  induction ops generalizing s with
  | nil => rfl
  | cons o ops ih =>
    cases o with
    | add v =>
      simp only [List.map_cons, AccOp.conv, accRun]
      rw [accAdd_conv hs ha]
      cases accAdd store s v with
      | none => rfl
      | some s' => exact ih s'
    | read q =>
      simp only [List.map_cons, AccOp.conv, accRun]
      rw [accQuantile_conv ha]
      exact ih _

/-- **C137**: so does a P2 accumulator, while it collects its first values and afterwards, whatever is read in between. -/
theorem C137_p2_accumulator (store : K → K) (hs : ∀ x, store (conv a b x) = conv a b (store x)) (ha : 0 < a) (points : List K)
    (ops : List (AccOp K)) (q : K) :
    (accRun store (accInit points) (ops.map (AccOp.conv a b))).map (fun s => (accQuantile s q).1) =
      (accRun store (accInit points) ops).map fun s => (accQuantile s q).1.map (conv a b) := by
  have h := accRun_conv hs ha ops (accInit points)
  rw [show (accInit points : Acc K).conv a b = accInit points from rfl] at h
  rw [h]
  cases accRun store (accInit points) ops with
  | none => rfl
  | some s => simp [accQuantile_conv ha]

end Verif.P2
