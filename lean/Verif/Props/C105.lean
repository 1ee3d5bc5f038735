import Verif.Model.Dtype
import Verif.Props.C34
import Verif.Props.C52
import Verif.Lemmas.Toy
import Mathlib.Data.List.GetD

/-! # C105: columns of integers -/

set_option linter.unusedSectionVars false

namespace TA

section wrapper
variable {F : Type} [FltFn F]

/-- C105. On closes of an integer type KAMA raises `TypeError`, whatever the closes, the windows and `fillna`. -/
theorem kama_int (close : Series F) (window pow1 pow2 : Nat) (fillna : Bool) :
    KAMA.typed .int64 close window pow1 pow2 fillna = .error .typeError := rfl

/-- C105. On closes of type float64 the typed model is the model of the other properties. -/
theorem kama_float (close : Series F) (window pow1 pow2 : Nat) (fillna : Bool) :
    KAMA.typed .float64 close window pow1 pow2 fillna = .ok (kama close window pow1 pow2 fillna) := rfl

theorem runBlocks_append (pfx : String) (B : List (Block F)) : ∀ (A : List (Block F)) (df : Frame F),
    runBlocks pfx (A ++ B) df = (runBlocks pfx A df).andThen (runBlocks pfx B)
  | [], _ => rfl
  | a :: A, df => by
    rw [List.cons_append, runBlocks, runBlocks]
    rcases runBlock pfx a df with ⟨df', _ | e⟩
    · exact runBlocks_append pfx B A df'
    · rfl

/-- the last block of `add_momentum_ta` -/
def kamaBlock (close : String) (fillna : Bool) : Block F := fun df => do
  let c ← df.get close
  return [("momentum_kama", .ok (kama c 10 2 30 fillna))]

theorem momentum_split (df : Frame F) (high low close volume : String) (fillna : Bool) (pfx : String) :
    addMomentumTa df high low close volume fillna pfx false
      = (addMomentumTa df high low close volume fillna pfx true).andThen (runBlocks pfx [kamaBlock close fillna]) := by
  have h : momentumBlocks (F := F) high low close volume fillna false
      = momentumBlocks high low close volume fillna true ++ [kamaBlock close fillna] := rfl
  unfold addMomentumTa
  rw [h, runBlocks_append]

/-- C105. On float64 the typed model of `add_momentum_ta` is the model of the other properties. -/
theorem momentum_float (df : Frame F) (high low close volume : String) (fillna : Bool) (pfx : String) (vec : Bool) :
    addMomentumTyped .float64 df high low close volume fillna pfx vec
      = (addMomentumTa df high low close volume fillna pfx vec).typed := by
  cases vec with
  | true =>
    unfold addMomentumTyped
    rcases addMomentumTa df high low close volume fillna pfx true with ⟨df', _ | e⟩ <;> rfl
  | false =>
    rw [momentum_split]
    unfold addMomentumTyped
    rcases addMomentumTa df high low close volume fillna pfx true with ⟨df', _ | e⟩
    · show _ = Outcome.typed (runBlocks pfx [kamaBlock close fillna] df')
      have h : ∀ x : Except PyErr (Series F), df'.get close = x → runBlocks pfx [kamaBlock close fillna] df' =
          match x with
          | .error e => (df', some e)
          | .ok c => (df'.set (pfx ++ "momentum_kama") (kama c 10 2 30 fillna), none) := by
        intro x hx
        unfold runBlocks runBlock kamaBlock
        rw [hx]
        cases x <;> rfl
      rw [h _ rfl]
      simp only [Bool.false_eq_true, if_false]
      rcases df'.get close with e | c <;> rfl
    · rfl

theorem typed_andThen (r : Outcome F) (g : Frame F → Outcome F) :
    (r.andThen g).typed = andThenT r.typed fun df => (g df).typed := by
  rcases r with ⟨df, _ | e⟩ <;> rfl

/-- C105. The same for `add_all_ta_features`. -/
theorem all_float (df : Frame F) (o high low close volume : String) (fillna : Bool) (pfx : String) (vec : Bool) :
    addAllTyped .float64 df high low close volume fillna pfx vec
      = (addAllTaFeatures df o high low close volume fillna pfx vec).typed := by
  unfold addAllTyped addAllTaFeatures
  simp only [typed_andThen, momentum_float]

/-- C105. With `vectorized=True` there is no KAMA, and the type of the closes makes no difference. -/
theorem vectorized_typed (dt : DType) (df : Frame F) (high low close volume : String) (fillna : Bool) (pfx : String) :
    addMomentumTyped dt df high low close volume fillna pfx true
      = (addMomentumTa df high low close volume fillna pfx true).typed := by
  unfold addMomentumTyped
  rcases addMomentumTa df high low close volume fillna pfx true with ⟨df', _ | e⟩ <;> rfl

theorem vectorized_all_typed (dt : DType) (df : Frame F) (o high low close volume : String) (fillna : Bool) (pfx : String) :
    addAllTyped dt df high low close volume fillna pfx true
      = (addAllTaFeatures df o high low close volume fillna pfx true).typed := by
  unfold addAllTyped addAllTaFeatures
  simp only [typed_andThen, vectorized_typed]

theorem noClash_vec {fn : Fn} {high low close volume pfx : String}
    (hc : fn.NoClash F high low close volume pfx false) : fn.NoClash F high low close volume pfx true :=
  fun p hp m hm => hc p ((sublist_features fn).subset hp) m hm

theorem momentum_int_eq {df : Frame F} {high low close volume pfx : String} {fillna : Bool} {b : List (Bar F)}
    (hr : Fn.momentum.Reads df high low close volume b) (hc : Fn.momentum.NoClash F high low close volume pfx false) :
    addMomentumTyped .int64 df high low close volume fillna pfx false
      = ((addMomentumTa df high low close volume fillna pfx true).1, some .typeError) := by
  have h2 : (addMomentumTa df high low close volume fillna pfx true).2 = none :=
    wrapper_exception .momentum (open_ := "") (vec := true) (fillna := fillna) hr (noClash_vec hc)
  have h3 : (addMomentumTa df high low close volume fillna pfx true).1.get close = .ok (closes b) := by
    have := wrapper_get .momentum df "" high low close volume pfx fillna true close
      (fun p hp => noClash_vec hc p hp (close, (·.close)) (by simp [Fn.inputs]))
    exact this.trans (hr (close, (·.close)) (by simp [Fn.inputs]))
  unfold addMomentumTyped
  rcases hx : addMomentumTa df high low close volume fillna pfx true with ⟨df', o⟩
  rw [hx] at h2 h3
  dsimp only at h2 h3
  subst h2
  simp only [Bool.false_eq_true, if_false, h3]
  rfl

/-- C105. `add_momentum_ta` on integer closes raises `TypeError` on every frame, after it has added exactly the columns it adds
with `vectorized=True`. -/
theorem momentum_int {df : Frame F} {high low close volume pfx : String} {fillna : Bool} {b : List (Bar F)}
    (hr : Fn.momentum.Reads df high low close volume b) (hf : Fn.momentum.Fresh df pfx false) :
    (addMomentumTyped .int64 df high low close volume fillna pfx false).2 = some .typeError ∧
    Filled pfx fillna b (momentumF true) df ((addMomentumTyped .int64 df high low close volume fillna pfx false).1, none) := by
  have hc := noClash_of_fresh hr hf
  rw [momentum_int_eq hr hc]
  refine ⟨rfl, ?_⟩
  have h2 : (addMomentumTa df high low close volume fillna pfx true).2 = none :=
    wrapper_exception .momentum (open_ := "") (vec := true) (fillna := fillna) hr (noClash_vec hc)
  have h := wrapper_filled .momentum (open_ := "") (vec := true) (fillna := fillna) hr
    (fun p hp => hf p ((sublist_features .momentum).subset hp))
  rw [← h2]
  exact h

/-! ### `add_all_ta_features` -/

theorem reads_sub {df : Frame F} {high low close volume : String} {b : List (Bar F)}
    (hr : Fn.all.Reads df high low close volume b) (fn : Fn) : fn.Reads df high low close volume b := by
  intro p hp
  refine hr p ?_
  cases fn <;> simp only [Fn.inputs, List.mem_cons, List.not_mem_nil, or_false] at hp ⊢ <;> tauto

theorem inputs_sub {high low close volume : String} (fn : Fn) {p : String × (Bar F → F)}
    (hp : p ∈ fn.inputs (F := F) high low close volume) : p ∈ Fn.all.inputs (F := F) high low close volume := by
  cases fn <;> simp only [Fn.inputs, List.mem_cons, List.not_mem_nil, or_false] at hp ⊢ <;> tauto

theorem noClash_sub {high low close volume pfx : String} {vec : Bool} (hc : Fn.all.NoClash F high low close volume pfx vec)
    (fn : Fn) : fn.NoClash F high low close volume pfx vec := by
  intro p hp m hm
  refine hc p ?_ m (inputs_sub fn hm)
  show p ∈ allF vec
  unfold allF
  cases fn with
  | all => exact hp
  | volume => exact List.mem_append_left _ (List.mem_append_left _ (List.mem_append_left _ (List.mem_append_left _ hp)))
  | volatility => exact List.mem_append_left _ (List.mem_append_left _ (List.mem_append_left _ (List.mem_append_right _ hp)))
  | trend => exact List.mem_append_left _ (List.mem_append_left _ (List.mem_append_right _ hp))
  | momentum => exact List.mem_append_left _ (List.mem_append_right _ hp)
  | others => exact List.mem_append_right _ hp

theorem reads_call {df : Frame F} {o high low close volume pfx : String} {fillna vec : Bool} {b : List (Bar F)}
    (hr : Fn.all.Reads df high low close volume b) (hc : Fn.all.NoClash F high low close volume pfx vec) (fn : Fn) :
    Fn.all.Reads (fn.call df o high low close volume fillna pfx vec).1 high low close volume b := by
  intro m hm
  rw [wrapper_get fn df o high low close volume pfx fillna vec m.1 ?_]
  · exact hr m hm
  · intro p hp
    refine hc p ?_ m hm
    show p ∈ allF vec
    unfold allF
    cases fn with
    | all => exact hp
    | volume => exact List.mem_append_left _ (List.mem_append_left _ (List.mem_append_left _ (List.mem_append_left _ hp)))
    | volatility => exact List.mem_append_left _ (List.mem_append_left _ (List.mem_append_left _ (List.mem_append_right _ hp)))
    | trend => exact List.mem_append_left _ (List.mem_append_left _ (List.mem_append_right _ hp))
    | momentum => exact List.mem_append_left _ (List.mem_append_right _ hp)
    | others => exact List.mem_append_right _ hp

/-- a frame that holds the inputs of `add_all_ta_features` and has the given index -/
def Holds (idx : Idx) (high low close volume : String) (b : List (Bar F)) (df : Frame F) : Prop :=
  df.idx = idx ∧ Fn.all.Reads df high low close volume b

theorem holds_assign {idx : Idx} {high low close volume pfx : String} {fillna : Bool} {b : List (Bar F)} {df : Frame F}
    (h : Holds idx high low close volume b df) {fs : List (String × Ind F)} (hs : ∀ p ∈ fs, p ∈ allF false)
    (hc : Fn.all.NoClash F high low close volume pfx false) :
    Holds idx high low close volume b (assignAll pfx (entries idx fillna b fs) df).1 := by
  refine ⟨by rw [idx_assignAll]; exact h.1, fun m hm => ?_⟩
  rw [get_assignAll]
  · exact h.2 m hm
  · intro p hp
    obtain ⟨q, hq, rfl⟩ := List.mem_map.mp hp
    exact hc q (hs q hq) m hm

/-- the features before the momentum features -/
def headF : List (String × Ind F) := volumeF false ++ volatilityF false ++ trendF false

theorem headF_sub : ∀ p ∈ headF (F := F), p ∈ allF false := by
  intro p hp
  unfold allF
  exact List.mem_append_left _ (List.mem_append_left _ hp)

/-- the calls before `add_momentum_ta` -/
def headCall (df : Frame F) (high low close volume : String) (fillna : Bool) (pfx : String) : Outcome F :=
  ((addVolumeTa df high low close volume fillna pfx false).andThen
    fun df => addVolatilityTa df high low close fillna pfx false).andThen
    fun df => addTrendTa df high low close fillna pfx false

theorem andThen_congr {r : Outcome F} {g g' : Frame F → Outcome F} (h : g r.1 = g' r.1) : r.andThen g = r.andThen g' := by
  rcases r with ⟨df, _ | e⟩
  · exact h
  · rfl

theorem entries_append (idx : Idx) (fillna : Bool) (b : List (Bar F)) (A B : List (String × Ind F)) :
    entries idx fillna b (A ++ B) = entries idx fillna b A ++ entries idx fillna b B := List.map_append

theorem headCall_eq {df : Frame F} {high low close volume pfx : String} {fillna : Bool} {b : List (Bar F)}
    (hr : Fn.all.Reads df high low close volume b) (hc : Fn.all.NoClash F high low close volume pfx false) :
    headCall df high low close volume fillna pfx = assignAll pfx (entries df.idx fillna b headF) df := by
  have h0 : Holds df.idx high low close volume b df := ⟨rfl, hr⟩
  have hV := call_eq .volume (open_ := "") (fillna := fillna) (reads_sub hr .volume) (noClash_sub hc .volume)
  have h1 : Holds df.idx high low close volume b (assignAll pfx (entries df.idx fillna b (volumeF false)) df).1 :=
    holds_assign h0 (fun p hp => headF_sub p (List.mem_append_left _ (List.mem_append_left _ hp))) hc
  have hA := call_eq .volatility (open_ := "") (fillna := fillna) (reads_sub h1.2 .volatility) (noClash_sub hc .volatility)
  rw [h1.1] at hA
  have h2 : Holds df.idx high low close volume b
      (assignAll pfx (entries df.idx fillna b (volumeF false ++ volatilityF false)) df).1 :=
    holds_assign h0 (fun p hp => headF_sub p (List.mem_append_left _ hp)) hc
  have hT := call_eq .trend (open_ := "") (fillna := fillna) (reads_sub h2.2 .trend) (noClash_sub hc .trend)
  rw [h2.1] at hT
  have e1 : (addVolumeTa df high low close volume fillna pfx false).andThen
      (fun df => addVolatilityTa df high low close fillna pfx false)
        = assignAll pfx (entries df.idx fillna b (volumeF false ++ volatilityF false)) df := by
    have : addVolumeTa df high low close volume fillna pfx false
        = assignAll pfx (entries df.idx fillna b (volumeF false)) df := hV
    rw [this, entries_append, assignAll_append]
    exact andThen_congr hA
  unfold headCall headF
  rw [e1, entries_append _ _ _ (volumeF false ++ volatilityF false), assignAll_append]
  exact andThen_congr hT

theorem firstErr_append (A B : List (String × Except PyErr (Series F))) :
    firstErr (A ++ B) = (firstErr A).or (firstErr B) := by
  induction A with
  | nil => rfl
  | cons a A ih =>
    rcases a with ⟨nm, e | s⟩
    · rfl
    · exact ih

theorem head_exception {df : Frame F} {high low close volume pfx : String} {fillna : Bool} {b : List (Bar F)}
    (hr : Fn.all.Reads df high low close volume b) (hc : Fn.all.NoClash F high low close volume pfx false) :
    (headCall df high low close volume fillna pfx).2 = Fn.exception false b.length .all := by
  rw [headCall_eq hr hc, assignAll_err]
  have hV := firstErr_exception .volume df.idx fillna false b
  have hM := firstErr_exception .momentum df.idx fillna false b
  have hO := firstErr_exception .others df.idx fillna false b
  have hX := firstErr_exception .all df.idx fillna false b
  by_cases h0 : b.length = 0
  · have e : firstErr (entries df.idx fillna b (volumeF false)) = some .indexError := by
      rw [show volumeF false = Fn.volume.features (F := F) false from rfl, hV]
      simp [Fn.exception, h0]
    unfold headF entries at *
    rw [List.map_append, List.map_append, firstErr_append, firstErr_append, e]
    simp [Fn.exception, h0]
  · rw [← hX]
    have e : entries df.idx fillna b (Fn.all.features false)
        = entries df.idx fillna b headF ++ entries df.idx fillna b (Fn.momentum.features false)
          ++ entries df.idx fillna b (Fn.others.features false) := by
      unfold entries
      rw [← List.map_append, ← List.map_append]
      rfl
    rw [e, firstErr_append, firstErr_append, hM, hO]
    simp [Fn.exception, h0]

theorem all_split (dt : DType) (df : Frame F) (high low close volume : String) (fillna : Bool) (pfx : String) :
    addAllTyped dt df high low close volume fillna pfx false
      = andThenT (andThenT (headCall df high low close volume fillna pfx).typed
          fun df => addMomentumTyped dt df high low close volume fillna pfx false)
          fun df => (addOthersTa df close fillna pfx).typed := rfl

/-- C105. `add_all_ta_features` on integer closes and fewer than 28 rows raises the same exception, with the same frame left
behind, as on float closes. -/
theorem all_int_short {df : Frame F} {o high low close volume pfx : String} {fillna : Bool} {b : List (Bar F)}
    (hr : Fn.all.Reads df high low close volume b) (hc : Fn.all.NoClash F high low close volume pfx false)
    (hn : b.length < 28) :
    addAllTyped .int64 df high low close volume fillna pfx false
      = (addAllTaFeatures df o high low close volume fillna pfx false).typed := by
  rw [← all_float, all_split, all_split]
  have h := head_exception (fillna := fillna) hr hc
  generalize headCall df high low close volume fillna pfx = r at h ⊢
  rcases r with ⟨df', _ | e⟩
  · exfalso
    have h' : none = Fn.exception false b.length .all := h
    unfold Fn.exception at h'
    simp only [Bool.false_eq_true, if_false] at h'
    split_ifs at h'
  · rfl

/-- C105. From 28 rows on, where float closes succeed (C56), integer closes raise `TypeError`, and what is left behind is the
caller's frame with the columns before `momentum_kama`: KAMA and the three return columns are missing. -/
theorem all_int {df : Frame F} {high low close volume pfx : String} {fillna : Bool} {b : List (Bar F)}
    (hr : Fn.all.Reads df high low close volume b) (hf : Fn.all.Fresh df pfx false) (hn : 28 ≤ b.length) :
    (addAllTyped .int64 df high low close volume fillna pfx false).2 = some .typeError ∧
    Filled pfx fillna b (volumeF false ++ volatilityF false ++ trendF false ++ momentumF true) df
      ((addAllTyped .int64 df high low close volume fillna pfx false).1, none) := by
  have hc := noClash_of_fresh hr hf
  have h := head_exception (fillna := fillna) hr hc
  have h0 : Fn.exception false b.length .all = none := by
    unfold Fn.exception
    simp only [Bool.false_eq_true, if_false]
    rw [if_neg (by omega), if_neg (by omega), if_neg (by omega)]
  rw [h0] at h
  have he := headCall_eq (fillna := fillna) hr hc
  have h1 : Holds df.idx high low close volume b (headCall df high low close volume fillna pfx).1 := by
    rw [he]
    exact holds_assign ⟨rfl, hr⟩ headF_sub hc
  have hm := momentum_int_eq (fillna := fillna) (reads_sub h1.2 .momentum) (noClash_sub hc .momentum)
  have hM := call_eq .momentum (open_ := "") (vec := true) (fillna := fillna) (reads_sub h1.2 .momentum)
    (noClash_vec (noClash_sub hc .momentum))
  rw [h1.1] at hM
  have h2 : (addMomentumTa (headCall df high low close volume fillna pfx).1 high low close volume fillna pfx true).2 = none :=
    wrapper_exception .momentum (open_ := "") (vec := true) (fillna := fillna) (reads_sub h1.2 .momentum)
      (noClash_vec (noClash_sub hc .momentum))
  have e : addAllTyped .int64 df high low close volume fillna pfx false
      = ((addMomentumTa (headCall df high low close volume fillna pfx).1 high low close volume fillna pfx true).1,
          some .typeError) := by
    rw [all_split]
    rcases hx : headCall df high low close volume fillna pfx with ⟨df', o⟩
    rw [hx] at h hm
    dsimp only at h hm
    subst h
    show andThenT (addMomentumTyped .int64 df' high low close volume fillna pfx false) _ = _
    rw [hm]
    rfl
  rw [e]
  refine ⟨rfl, ?_⟩
  have sub : (headF (F := F) ++ momentumF true).Sublist (allF false) := by
    unfold allF
    exact ((List.Sublist.refl _).append (sublist_features .momentum)).trans (List.sublist_append_left _ _)
  have g := assignAll_filled pfx fillna b df.idx (headF ++ momentumF true) df rfl (fun p hp => hf p (sub.subset hp))
    ((sub.map (·.1)).nodup (nodup_features .all false))
  have e2 : assignAll pfx (entries df.idx fillna b (headF ++ momentumF true)) df
      = addMomentumTa (headCall df high low close volume fillna pfx).1 high low close volume fillna pfx true := by
    unfold entries at *
    rw [List.map_append, assignAll_append, ← he]
    rcases hx : headCall df high low close volume fillna pfx with ⟨df', o⟩
    rw [hx] at h hM
    dsimp only at h hM
    subst h
    exact hM.symm
  rw [e2] at g
  rw [← h2]
  exact g

end wrapper

section
attribute [local instance] toyFn

/-- three integer closes: the exception, and 17 of the 18 columns -/
example : (addMomentumTyped .int64 ohlcF "High" "Low" "Close" "Volume" true "ta_" false).2 = some .typeError ∧
    (addMomentumTyped .int64 ohlcF "High" "Low" "Close" "Volume" true "ta_" false).1.cols.length = ohlcF.cols.length + 17 := by
  obtain ⟨h1, vals, h2, h3, h4, h5⟩ := momentum_int (fillna := true) (ohlc_reads .momentum) (ohlc_fresh .momentum false)
  refine ⟨h1, ?_⟩
  have h4' := congrArg List.length h4
  have h5' : vals.length = 17 := h5
  rw [List.length_append, List.length_zipWith, h5'] at h4'
  exact h4'

end

/-! ## unsigned volumes -/

section obv
open Finset
variable {K : Type} [Field K] [LinearOrder K]

/-- the close fell on row `j` -/
def fell (c : Series (Val K)) (j : Nat) : Bool := decide (1 ≤ j) && (ix c j <. ix c (j - 1))

/-- on-balance volume in the integers: volumes of rows where the close fell count negative -/
def obvZ (c : Series (Val K)) (v : Nat → Nat) (i : Nat) : Int :=
  ∑ j ∈ range (i + 1), if fell c j then -(v j : Int) else (v j : Int)

/-- number of rows up to `i` on which the close fell and something was traded -/
def sells (c : Series (Val K)) (v : Nat → Nat) (i : Nat) : Nat :=
  #{j ∈ range (i + 1) | fell c j = true ∧ v j ≠ 0}

theorem take_tab_sum (n : Nat) (f : Nat → Nat) (i : Nat) (h : i < n) : ((tab n f).take (i + 1)).sum = ∑ j ∈ range (i + 1), f j := by
  have e : (tab n f).take (i + 1) = (List.range (i + 1)).map f := by
    unfold tab
    rw [← List.map_take, List.take_range, min_eq_left (by omega)]
  rw [e]
  generalize i + 1 = m
  induction m with
  | zero => rfl
  | succ m ih => rw [List.range_succ, List.map_append, List.sum_append, ih, Finset.sum_range_succ]; simp

theorem negU_int {w v : Nat} (h : v < 2 ^ w) : ((negU w v : Nat) : Int) = if v ≠ 0 then 2 ^ w - (v : Int) else 0 := by
  unfold negU
  by_cases h0 : v = 0
  · simp [h0]
  · rw [if_pos h0, Nat.mod_eq_of_lt (by omega)]
    push_cast [Nat.cast_sub h.le]
    rfl

theorem Val.lt_nan (a : Val K) : (a <. (Flt.nan : Val K)) = false := by
  cases a <;> rfl

theorem length_runU (w : Nat) (c : Series (Val K)) (v : List Nat) : (OBV.runU w c v).length = v.length := by
  unfold OBV.runU tab
  simp

/-- C105. On-balance volume of volumes of `w` unsigned bits: row `i` is, modulo `2^64`, the true value plus `2^w` for every row so
far on which the close fell and something was traded. -/
theorem obv_unsigned (w : Nat) (c : Series (Val K)) (v : List Nat) (hl : v.length = c.length) (hv : ∀ x ∈ v, x < 2 ^ w)
    (i : Nat) (hi : i < v.length) :
    (((OBV.runU w c v).getD i 0 : Nat) : Int)
      = (obvZ c (fun j => v.getD j 0) i + 2 ^ w * (sells c (fun j => v.getD j 0) i : Int)) % 2 ^ 64 := by
  have e1 : (OBV.runU w c v).getD i 0 = ((OBV.signedU w c v).take (i + 1)).sum % 2 ^ 64 := by
    unfold OBV.runU
    rw [List.getD_eq_getElem _ _ (by unfold tab; simpa using hi)]
    unfold tab
    simp
  rw [e1]
  unfold OBV.signedU
  rw [take_tab_sum _ _ _ hi]
  push_cast
  congr 1
  unfold obvZ sells
  rw [Finset.card_filter]
  push_cast
  rw [Finset.mul_sum, ← Finset.sum_add_distrib]
  refine Finset.sum_congr rfl fun j hj => ?_
  have hj' : j < v.length := by have := Finset.mem_range.mp hj; omega
  have hf : (ix c j <. ix (shift c 1) j) = fell c j := by
    rw [ix_shift (by omega)]
    unfold fell
    by_cases h : j < 1
    · rw [if_pos h, Val.lt_nan]
      simp; omega
    · rw [if_neg h]
      have : 1 ≤ j := by omega
      simp [this]
  rw [hf]
  have hvj : v.getD j 0 < 2 ^ w := by
    rw [List.getD_eq_getElem _ _ hj']
    exact hv _ (List.getElem_mem _)
  cases fell c j with
  | false => simp
  | true =>
    simp only [if_true, true_and]
    rw [negU_int hvj]
    split_ifs with h
    · ring
    · simp at h
      simp [h]

/-- C105. With 64 bits the result is right exactly as long as the true value is not negative (and fits); below 0 it is off by
`2^64`. -/
theorem obv_uint64 (c : Series (Val K)) (v : List Nat) (hl : v.length = c.length) (hv : ∀ x ∈ v, x < 2 ^ 64)
    (i : Nat) (hi : i < v.length) :
    (0 ≤ obvZ c (fun j => v.getD j 0) i → obvZ c (fun j => v.getD j 0) i < 2 ^ 64 →
      (((OBV.runU 64 c v).getD i 0 : Nat) : Int) = obvZ c (fun j => v.getD j 0) i) ∧
    (obvZ c (fun j => v.getD j 0) i < 0 → -2 ^ 64 ≤ obvZ c (fun j => v.getD j 0) i →
      (((OBV.runU 64 c v).getD i 0 : Nat) : Int) = obvZ c (fun j => v.getD j 0) i + 2 ^ 64) := by
  have h := obv_unsigned 64 c v hl hv i hi
  rw [Int.add_mul_emod_self_left] at h
  rw [h]
  refine ⟨fun a b => Int.emod_eq_of_lt a b, fun a b => ?_⟩
  rw [← Int.add_emod_right]
  exact Int.emod_eq_of_lt (by linarith) (by linarith)

/-- C105. With fewer bits it is off by `2^w` for every such row, until the sum passes `2^64`. -/
theorem obv_uint (w : Nat) (c : Series (Val K)) (v : List Nat) (hl : v.length = c.length)
    (hv : ∀ x ∈ v, x < 2 ^ w) (i : Nat) (hi : i < v.length) (hs : (i + 1) * 2 ^ w ≤ 2 ^ 64) :
    (((OBV.runU w c v).getD i 0 : Nat) : Int)
      = obvZ c (fun j => v.getD j 0) i + 2 ^ w * (sells c (fun j => v.getD j 0) i : Int) := by
  rw [obv_unsigned w c v hl hv i hi]
  have hrow : ∀ j ∈ range (i + 1), 0 ≤ (if fell c j then -(v.getD j 0 : Int) else (v.getD j 0 : Int))
        + 2 ^ w * ((if fell c j = true ∧ v.getD j 0 ≠ 0 then 1 else 0 : Nat) : Int) ∧
      (if fell c j then -(v.getD j 0 : Int) else (v.getD j 0 : Int))
        + 2 ^ w * ((if fell c j = true ∧ v.getD j 0 ≠ 0 then 1 else 0 : Nat) : Int) < 2 ^ w := by
    intro j hj
    have hj' : j < v.length := by have := Finset.mem_range.mp hj; omega
    have hvj : v.getD j 0 < 2 ^ w := by
      rw [List.getD_eq_getElem _ _ hj']
      exact hv _ (List.getElem_mem _)
    have hz : ((v.getD j 0 : Nat) : Int) < 2 ^ w := by exact_mod_cast hvj
    have hp : (0 : Int) < 2 ^ w := by positivity
    generalize hx : v.getD j 0 = x at *
    generalize (2 : Int) ^ w = W at *
    cases fell c j with
    | false => simp; omega
    | true =>
      by_cases h0 : x = 0
      · simp [h0]; omega
      · simp [h0]; omega
  have hsum : obvZ c (fun j => v.getD j 0) i + 2 ^ w * (sells c (fun j => v.getD j 0) i : Int)
      = ∑ j ∈ range (i + 1), ((if fell c j then -(v.getD j 0 : Int) else (v.getD j 0 : Int))
        + 2 ^ w * ((if fell c j = true ∧ v.getD j 0 ≠ 0 then 1 else 0 : Nat) : Int)) := by
    unfold obvZ sells
    rw [Finset.card_filter, Finset.sum_add_distrib, ← Finset.mul_sum]
    push_cast
    rfl
  rw [hsum]
  refine Int.emod_eq_of_lt (Finset.sum_nonneg fun j hj => (hrow j hj).1) ?_
  have h1 := Finset.sum_lt_sum_of_nonempty (s := range (i + 1)) (by simp) fun j hj => (hrow j hj).2
  have h2 : ((i + 1 : Nat) : Int) * 2 ^ w ≤ 2 ^ 64 := by exact_mod_cast hs
  simp only [Finset.sum_const, Finset.card_range, nsmul_eq_mul] at h1
  exact lt_of_lt_of_le h1 h2

/-- C105. The true value is what the code computes on the same volumes as float64 (C34). -/
theorem obvZ_float [IsStrictOrderedRing K] (n : Nat) (c : Nat → K) (v : Nat → Nat) (fillna : Bool) (i : Nat) (hi : i < n) :
    ix (onBalanceVolume (ser n c) (ser n fun j => (v j : K)) fillna) i = .fin ((obvZ (ser n c) v i : Int) : K) := by
  rw [(obv_formula n c _ fillna).val i hi (Nat.zero_le _)]
  unfold obvZ
  push_cast
  congr 1
  refine Finset.sum_congr rfl fun j hj => ?_
  have hj' : j < n := by have := Finset.mem_range.mp hj; omega
  have e : fell (ser n c) j = decide (0 < j ∧ c j < c (j - 1)) := by
    unfold fell
    rw [(def_ser n c).val j hj' (Nat.zero_le _), (def_ser n c).val (j - 1) (by omega) (Nat.zero_le _)]
    have : ((Val.fin (c j) : Val K) <. Val.fin (c (j - 1))) = decide (c j < c (j - 1)) := rfl
    rw [this, Bool.decide_and]
    rfl
  rw [e]
  simp

/-- one sale of 5 after a purchase of 3: the true value is −2 -/
example : OBV.runU 64 (qs [10, 9, 11]) [3, 5, 4] = [3, 2 ^ 64 - 2, 2] := by decide +kernel
example : OBV.runU 32 (qs [10, 9, 11]) [3, 5, 4] = [3, 2 ^ 32 - 2, 2 ^ 32 + 2] := by decide +kernel
example : onBalanceVolume (qs [10, 9, 11]) (qs [3, 5, 4]) = qs [3, -2, 2] := by decide +kernel

end obv

/-! ## volumes of 32 signed bits -/

section eom
variable {K : Type} [Field K] [LinearOrder K] [IsStrictOrderedRing K]

/-- the volumes as a column of integers -/
def intCol (n : Nat) (v : Nat → Int) : List Int := tab n v

theorem bmod_small {x : Int} (h : -2 ^ 31 ≤ x) (h' : x < 2 ^ 31) : wrapS 32 x = x := by
  unfold wrapS
  rw [Int.bmod_eq_of_le] <;> norm_num at * <;> omega

theorem bmod_big {x : Int} (h : 2 ^ 31 ≤ x) (h' : x < 3 * 2 ^ 31) : wrapS 32 x = x - 2 ^ 32 := by
  unfold wrapS
  have : x.bmod (2 ^ 32) = (x - 2 ^ 32).bmod (2 ^ 32) := by
    exact (Int.sub_bmod_right x (2 ^ 32)).symm
  rw [this, Int.bmod_eq_of_le] <;> norm_num at * <;> omega

theorem Def.uniq {s t : Series (Val K)} {n p : Nat} {f : Nat → K} (hs : Def s n p f) (ht : Def t n p f) : s = t := by
  refine series_ext (hs.len.trans ht.len.symm) fun i hi => ?_
  rw [hs.len] at hi
  by_cases h : i < p
  · rw [hs.gap i hi h, ht.gap i hi h]
  · rw [hs.val i hi (by omega), ht.val i hi (by omega)]

theorem floatCol_wrap (n : Nat) (v : Nat → Int) :
    floatCol ((intCol n v).map fun x => wrapS 32 (2 * x)) = ser n fun i => ((wrapS 32 (2 * v i) : Int) : K) := by
  unfold floatCol intCol ser tab
  rw [List.map_map, List.map_map]
  refine List.map_congr_left fun i _ => ?_
  show lit _ = Val.fin _
  rw [lit_fin]
  push_cast
  rfl

/-- C105. Ease of movement of volumes of 32 signed bits, none of them 0 or 2^31 after doubling: the divisor is the doubled volume
modulo `2^32`. -/
theorem eom_int32 (n : Nat) (h l : Nat → K) (v : Nat → Int) (hv : ∀ i, wrapS 32 (2 * v i) ≠ 0) :
    Def (EOM.runS 32 (ser n h) (ser n l) (intCol n v)) n 1
      (fun i => (h i - h (i - 1) + (l i - l (i - 1))) * (h i - l i) / ((wrapS 32 (2 * v i) : Int) : K) * 100000000) := by
  unfold EOM.runS
  rw [floatCol_wrap, lit_fin]
  have := (((((def_ser n h).ssub (def_prev n h)).sadd ((def_ser n l).ssub (def_prev n l))).smul
    ((def_ser n h).ssub (def_ser n l))).sdiv (def_ser n fun i => ((wrapS 32 (2 * v i) : Int) : K))
      (fun i _ _ _ => by exact_mod_cast hv i)).mulc 100000000
  push_cast
  exact Def.congr (by simpa [sdiff] using this) fun i _ _ => rfl

/-- C105. Volumes below `2^30` give the same as float64. -/
theorem eom_int32_small (n : Nat) (h l : Nat → K) (v : Nat → Int) (hv : ∀ i, 0 < v i) (hb : ∀ i, v i < 2 ^ 30) :
    EOM.runS 32 (ser n h) (ser n l) (intCol n v) = EOM.run (ser n h) (ser n l) (ser n fun i => ((v i : Int) : K)) := by
  have w : ∀ i, wrapS 32 (2 * v i) = 2 * v i := fun i => by
    have := hv i; have := hb i
    exact bmod_small (by norm_num; omega) (by norm_num at *; omega)
  refine (eom_int32 n h l v fun i => by rw [w]; have := hv i; omega).uniq
    ((def_eom n h l (fun i => ((v i : Int) : K)) fun i => by have := hv i; exact_mod_cast this.ne').congr fun i _ _ => ?_)
  rw [w]
  have : ((v i : Int) : K) ≠ 0 := by have := hv i; exact_mod_cast this.ne'
  push_cast
  field_simp
  ring

/-- C105. From `2^30` on (half of what the type can hold) the sign is wrong: the divisor is `2v − 2^32`, which is negative. -/
theorem eom_int32_big (n : Nat) (h l : Nat → K) (v : Nat → Int) (hv : ∀ i, 2 ^ 30 ≤ v i) (hb : ∀ i, v i < 2 ^ 31)
    (i : Nat) (hi : i < n) (h1 : 1 ≤ i) :
    ∃ x y : K, ix (EOM.runS 32 (ser n h) (ser n l) (intCol n v)) i = .fin x ∧
      ix (EOM.run (ser n h) (ser n l) (ser n fun i => ((v i : Int) : K))) i = .fin y ∧
      x * (2 * (v i : K) - 2 ^ 32) = y * (2 * (v i : K)) ∧ (0 < y → x < 0) ∧ (y < 0 → 0 < x) := by
  have w : ∀ i, wrapS 32 (2 * v i) = 2 * v i - 2 ^ 32 := fun i => by
    have := hv i; have := hb i
    exact bmod_big (by norm_num at *; omega) (by norm_num at *; omega)
  have p0 : ∀ i, (0 : Int) < v i := fun i => by have := hv i; norm_num at this; omega
  have A := eom_int32 n h l v fun i => by rw [w]; have := hb i; norm_num at *; omega
  have B := def_eom n h l (fun i => ((v i : Int) : K)) fun i => by exact_mod_cast (p0 i).ne'
  have hd : (2 * (v i : K) - 2 ^ 32) < 0 := by
    have : 2 * v i - 2 ^ 32 < 0 := by have := hb i; norm_num at *; omega
    exact_mod_cast this
  have hp : (0 : K) < 2 * (v i : K) := by
    have : 0 < 2 * v i := by have := p0 i; omega
    exact_mod_cast this
  have hD : ((wrapS 32 (2 * v i) : Int) : K) = 2 * (v i : K) - 2 ^ 32 := by
    rw [w]
    push_cast
    norm_num
  have e : ((h i + l i) / 2 - (h (i - 1) + l (i - 1)) / 2) * (h i - l i) / (v i : K) * 100000000
      = (h i - h (i - 1) + (l i - l (i - 1))) * (h i - l i) / (2 * (v i : K)) * 100000000 := by
    have : ((v i : Int) : K) ≠ 0 := by exact_mod_cast (p0 i).ne'
    field_simp
    ring
  refine ⟨_, _, A.val i hi h1, B.val i hi h1, ?_⟩
  rw [hD, e]
  generalize (h i - h (i - 1) + (l i - l (i - 1))) * (h i - l i) = a
  generalize (2 * (v i : K) - 2 ^ 32) = d at hd
  generalize (2 * (v i : K)) = q at hp
  refine ⟨?_, ?_⟩
  · have := hd.ne
    have := hp.ne'
    field_simp
  · clear A B
    constructor
    · intro hy
      have : 0 < a := by
        by_contra hn
        have := div_nonpos_of_nonpos_of_nonneg (not_lt.mp hn) hp.le
        linarith
      have := div_neg_of_pos_of_neg this hd
      linarith
    · intro hy
      have : a < 0 := by
        by_contra hn
        have := div_nonneg (not_lt.mp hn) hp.le
        linarith
      have := div_pos_of_neg_of_neg this hd
      linarith

/-- 1.5 · 2^30 shares on a rising bar: positive with float64, negative (and three times as large) with int32 -/
example : EOM.run (qs [10, 12]) (qs [6, 8]) (qs [1, 1610612736]) = [.nan, .fin (390625 / 786432)] ∧
    EOM.runS (F := Val ℚ) 32 (qs [10, 12]) (qs [6, 8]) [1, 1610612736] = [.nan, .fin (-390625 / 262144)] := by
  decide +kernel

end eom

end TA
