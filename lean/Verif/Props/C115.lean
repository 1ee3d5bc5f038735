import Verif.Props.C41
import Verif.Props.C77

/-! # C115: rows before the first price

A frame of `n` rows without a single price or volume (as a left join with a calendar gives for the time before a
listing).  The value of each of the 84 outputs on each row, without and with filling.  The filled values are the
constants written in the source, except where the code computes something from nothing. -/

set_option linter.unusedSectionVars false

namespace TA

/-- A row without data. -/
def noBar {K : Type} : Bar (Val K) := ⟨.nan, .nan, .nan, .nan⟩

/-- What row `i` of `n` rows without data shows when `fillna=True`. -/
noncomputable def Ind.unpriced (n i : Nat) : Ind (Val ℝ) → Val ℝ
  -- centre of an oscillator that runs from 0 to 100
  | .uo .. | .stoch _ | .stochSignal .. | .mfi _ => .fin 50
  -- Williams %R runs from -100 to 0
  | .williamsR _ => .fin (-50)
  -- no move counts as no loss
  | .rsi _ => .fin 100
  -- ratios around one
  | .vortexPos _ | .vortexNeg _ => .fin 1
  -- the index starts at a thousand
  | .nvi => .fin 1000
  -- prices and bands are backfilled, and there is nothing to take the value from
  | .kama .. | .ema _ | .sma _ | .ichimokuConv _ | .ichimokuBase _ | .ichimokuA .. | .ichimokuB .. | .psar .. | .psarUp ..
  | .psarDown .. | .bbMavg .. | .bbHband .. | .bbLband .. | .kcMband .. | .kcHband .. | .kcLband .. | .dcHband .. | .dcLband ..
  | .dcMband .. | .cr => .nan
  -- filled before the shift by `offset`
  | .dcWband _ off | .dcPband _ off => if 0 ≤ (i : Int) - off ∧ (i : Int) - off < n then .fin 0 else .nan
  -- everything else, the weighted average and the VWAP included, is 0
  | _ => .fin 0

/-- The outputs that are not missing on a row without data although `fillna=False`, and their value there. -/
noncomputable def Ind.unpricedRaw (i : Nat) : Ind (Val ℝ) → Val ℝ
  | .rsi w => if w - 1 ≤ i then .fin 100 else .nan
  | .nvi => .fin 1000
  | .atr w => if i < w - 1 then .fin 0 else .nan
  | .bbHi .. | .bbLi .. | .kcHi .. | .kcLi .. | .psarUpInd .. | .psarDownInd .. => .fin 0
  | _ => .nan

/-- the three outputs of the ADX -/
def Ind.isAdx {F : Type} : Ind F → Prop
  | .adx _ | .adxPos _ | .adxNeg _ => True
  | _ => False

/-! ## Series of missing values -/

section
variable {K : Type} [Field K] [LinearOrder K] [IsStrictOrderedRing K]

/-- `n` missing values -/
def nans (n : Nat) : Series (Val K) := List.replicate n .nan

theorem ix_nans (n i : Nat) : ix (nans n : Series (Val K)) i = .nan := by
  unfold ix nans
  rw [List.getD_eq_getElem?_getD, List.getElem?_replicate]
  split_ifs <;> rfl

@[simp] theorem nans_length (n : Nat) : (nans n : Series (Val K)).length = n := by simp [nans]

theorem nans_of {s : Series (Val K)} {n : Nat} (hl : s.length = n) (h : ∀ i, i < n → ix s i = .nan) : s = nans n :=
  series_ext (by simp [hl]) fun i hi => by rw [h i (hl ▸ hi), ix_nans]

theorem tab_flat (n : Nat) (v : Val K) : tab n (fun _ => v) = List.replicate n v := by
  unfold tab; simp

theorem nans_zip2 {f : Val K → Val K → Val K} (hf : ∀ v, f .nan v = .nan) (n : Nat) (t : Series (Val K)) :
    zip2 f (nans n) t = nans n := by
  unfold zip2
  simp only [ix_nans, hf, nans_length, tab_flat]
  rfl

theorem nans_zip2r {f : Val K → Val K → Val K} (hf : ∀ v, f v .nan = .nan) {n : Nat} {s : Series (Val K)} (hs : s.length = n) :
    zip2 f s (nans n) = nans n := by
  unfold zip2
  simp only [ix_nans, hf, hs, tab_flat]
  rfl

@[simp] theorem nans_sadd (n : Nat) (t : Series (Val K)) : sadd (nans n) t = nans n := nans_zip2 nan_add n t
@[simp] theorem nans_ssub (n : Nat) (t : Series (Val K)) : ssub (nans n) t = nans n := nans_zip2 nan_sub n t
@[simp] theorem nans_smul (n : Nat) (t : Series (Val K)) : smul (nans n) t = nans n := nans_zip2 nan_mul n t
@[simp] theorem nans_sdiv (n : Nat) (t : Series (Val K)) : sdiv (nans n) t = nans n := nans_zip2 nan_div n t
@[simp] theorem nans_cmul (n : Nat) (v : Val K) : cmul v (nans n) = nans n := by simp [cmul, nans, List.map_replicate]
@[simp] theorem nans_csub (n : Nat) (v : Val K) : csub v (nans n) = nans n := by simp [csub, nans, List.map_replicate]
@[simp] theorem nans_cadd (n : Nat) (v : Val K) : cadd v (nans n) = nans n := by simp [cadd, nans, List.map_replicate]
@[simp] theorem nans_cdiv (n : Nat) (v : Val K) : cdiv v (nans n) = nans n := by simp [cdiv, nans, List.map_replicate]
@[simp] theorem nans_mulc (n : Nat) (v : Val K) : mulc (nans n) v = nans n := by simp [mulc, nans, List.map_replicate]
@[simp] theorem nans_subc (n : Nat) (v : Val K) : subc (nans n) v = nans n := by simp [subc, nans, List.map_replicate]
@[simp] theorem nans_divc (n : Nat) (v : Val K) : divc (nans n) v = nans n := by simp [divc, nans, List.map_replicate]
@[simp] theorem nans_sabs (n : Nat) : sabs (nans n : Series (Val K)) = nans n := by
  simp [sabs, nans, List.map_replicate]

theorem zero_over_zero : (.fin 0 : Val K) /. .fin 0 = .nan := by
  show (if (0 : K) = 0 then _ else _) = _
  simp

theorem valid_nans (n : Nat) : valid (nans n : Series (Val K)) = [] := by
  unfold valid nans
  rw [List.filter_replicate]
  simp

@[simp] theorem nans_smean (n : Nat) : smean (nans n : Series (Val K)) = .nan := by
  unfold smean; rw [valid_nans]; rfl

@[simp] theorem nans_shift (n k : Nat) : shift (nans n : Series (Val K)) k .nan = nans n := by
  unfold shift
  simp only [ix_nans, nans_length, ite_self, tab_flat]
  rfl

@[simp] theorem nans_shift' (n k : Nat) : shift (nans n : Series (Val K)) k nan = nans n := nans_shift n k

@[simp] theorem nans_shiftInt (n : Nat) (k : Int) : shiftInt (nans n : Series (Val K)) k = nans n := by
  unfold shiftInt
  simp only [ix_nans, nans_length]
  rw [show (fun i : Nat => if (i : Int) - k < 0 then (nan : Val K) else .nan) = fun _ => .nan from funext fun i => by
    split_ifs <;> rfl, tab_flat]
  rfl

@[simp] theorem nans_sdiff (n : Nat) : sdiff (nans n : Series (Val K)) = nans n := by unfold sdiff; simp

/-- a window over missing values -/
theorem nans_roll (n w : Nat) (agg : List (Val K) → Val K) :
    roll w agg (nans n) = tab n fun i => agg (nans (min w (i + 1))) := by
  unfold roll pre
  rw [show (nans n : Series (Val K)).map clean = nans n by simp [nans, List.map_replicate], nans_length]
  refine List.map_congr_left fun i hi => ?_
  have hi := List.mem_range.1 hi
  unfold lastN nans
  rw [List.take_replicate]
  beta_reduce
  rw [List.drop_replicate, List.length_replicate, Nat.min_eq_left (by omega : i + 1 ≤ n)]
  congr 2
  omega

theorem tab_nan {n : Nat} {f : Nat → Val K} (h : ∀ i, f i = .nan) : tab n f = nans n := by
  rw [show f = fun _ => .nan from funext h, tab_flat]; rfl

@[simp] theorem nans_rollMean (n w mp : Nat) : rollMean w mp (nans n : Series (Val K)) = nans n := by
  unfold rollMean
  rw [nans_roll]
  exact tab_nan fun i => by unfold aggMean; rw [valid_nans]; simp [nan]

@[simp] theorem nans_rollMax (n w mp : Nat) : rollMax w mp (nans n : Series (Val K)) = nans n := by
  unfold rollMax
  rw [nans_roll]
  exact tab_nan fun i => by unfold aggMax; rw [valid_nans]; simp [maxL, nan]

@[simp] theorem nans_rollMin (n w mp : Nat) : rollMin w mp (nans n : Series (Val K)) = nans n := by
  unfold rollMin
  rw [nans_roll]
  exact tab_nan fun i => by unfold aggMin; rw [valid_nans]; simp [minL, nan]

theorem nans_rollSum (n w mp : Nat) :
    rollSum w mp (nans n : Series (Val K)) = if mp = 0 then List.replicate n (.fin 0) else nans n := by
  unfold rollSum
  rw [nans_roll]
  split_ifs with h
  · rw [← tab_flat]
    refine List.map_congr_left fun i _ => ?_
    unfold aggSum
    rw [valid_nans]
    simp [h]
  · exact tab_nan fun i => by unfold aggSum; rw [valid_nans]; simp [h, nan]

theorem nans_rollApply (f : List (Val K) → Val K) (n w : Nat) {mp : Nat} (h : mp ≠ 0) : rollApply f w mp (nans n) = nans n := by
  unfold rollApply
  rw [nans_roll]
  exact tab_nan fun i => by unfold aggApply; rw [valid_nans]; simp [h, nan]

/-- two windowed sums of nothing -/
theorem nans_ratio (n w mp : Nat) : sdiv (rollSum w mp (nans n : Series (Val K))) (rollSum w mp (nans n)) = nans n := by
  rw [nans_rollSum]
  split_ifs
  · unfold sdiv zip2
    refine nans_of (by simp) fun i hi => ?_
    rw [ix_tab_lt (by simpa using hi), ix_lt (by simpa using hi), List.getElem_replicate]
    exact zero_over_zero
  · simp

theorem ewm_nans_state (a : Val K) (n : Nat) : (nans n : Series (Val K)).foldl (ewmStep a) ewmInit = ewmInit := by
  induction n with
  | zero => rfl
  | succ n ih =>
    show (nans n : Series (Val K)).foldl (ewmStep a) (ewmStep a ewmInit .nan) = ewmInit
    rw [show ewmStep a (ewmInit : EwmSt (Val K)) .nan = ewmInit by simp [ewmStep, ewmInit, nan]]
    exact ih

theorem take_nans (n k : Nat) : (nans n : Series (Val K)).take k = nans (min k n) := by
  unfold nans; rw [List.take_replicate]

@[simp] theorem nans_ewm (a : Val K) (n mp : Nat) : ewm a mp (nans n : Series (Val K)) = nans n := by
  unfold ewm pre
  rw [show (nans n : Series (Val K)).map clean = nans n by simp [nans, List.map_replicate], nans_length]
  exact tab_nan fun i => by
    rw [take_nans]
    beta_reduce
    rw [ewm_nans_state]
    simp [ewmOut, ewmInit, nan]

@[simp] theorem nans_ema (n w : Nat) (fl : Bool) : ema (nans n : Series (Val K)) w fl = nans n := nans_ewm _ _ _

@[simp] theorem nans_cumsum (n : Nat) : cumsum (nans n : Series (Val K)) = nans n := by
  unfold cumsum pre
  rw [nans_length]
  exact tab_nan fun i => by rw [take_nans]; beta_reduce; rw [ix_nans]; simp [nan]

@[simp] theorem nans_ffill (n : Nat) : ffill (nans n : Series (Val K)) = nans n := by
  unfold ffill pre
  rw [nans_length]
  exact tab_nan fun i => by rw [take_nans]; beta_reduce; rw [valid_nans]; rfl

@[simp] theorem nans_bfill (n : Nat) : bfill (nans n : Series (Val K)) = nans n := by
  unfold bfill
  rw [nans_length]
  exact tab_nan fun i => by
    rw [show (nans n : Series (Val K)).drop i = nans (n - i) by simp [nans], valid_nans]; rfl

@[simp] theorem nans_pct (n : Nat) : pctChange (nans n : Series (Val K)) = nans n := by unfold pctChange; simp

@[simp] theorem nans_npRoll (n k : Nat) : npRoll (nans n : Series (Val K)) k = nans n := by
  unfold npRoll
  rw [nans_length]
  exact tab_nan fun i => ix_nans _ _

@[simp] theorem nans_trueRange (n : Nat) : trueRange (nans n : Series (Val K)) (nans n) (nans n) = nans n := by
  unfold trueRange zip3
  rw [nans_length]
  exact tab_nan fun i => by simp only [ix_nans]; simp [valid, maxL, nan]

@[simp] theorem nans_fillConst (n : Nat) (v : Val K) : fillConst v (nans n) = List.replicate n v := by
  simp [fillConst, nans, List.map_replicate]

theorem nans_replaceInf (n : Nat) : replaceInf (nans n : Series (Val K)) = nans n := by
  simp [replaceInf, nans, List.map_replicate]

/-- what filling makes of a missing series -/
theorem nans_check (fl : Bool) (v : Val K) (n : Nat) : checkFillna fl (.const v) (nans n) = List.replicate n (if fl then v else .nan) := by
  unfold checkFillna
  cases fl
  · rfl
  · simp [nans_replaceInf]

@[simp] theorem nans_back (fl : Bool) (n : Nat) : checkFillna fl .back (nans n : Series (Val K)) = nans n := by
  unfold checkFillna
  cases fl
  · rfl
  · simp [nans_replaceInf]

/-- a constant column without missing values is left alone -/
theorem flat_check (fl : Bool) (v x : Val K) (hx : Flt.isNaN x = false) (hi : Flt.isInf x = false) (n : Nat) :
    checkFillna fl (.const v) (List.replicate n x) = List.replicate n x := by
  cases fl
  · rfl
  · refine series_ext (by simp) fun i hl => ?_
    have hl' : i < (List.replicate n x).length := by simpa using hl
    have e : ix (List.replicate n x) i = x := by rw [ix_lt hl']; simp
    rw [checkFillna_keep hl' (by rw [e]; exact ⟨hx, hi⟩)]

/-! ## Zeros and gaps -/

/-- entries that are missing or `a` -/
def OnlyA (a : K) (v : Val K) : Prop := v = .nan ∨ v = .fin a

theorem onlyA_fill {s : Series (Val K)} {a : K} {v : Val K} (h : ∀ i, i < s.length → OnlyA a (ix s i))
    (h0 : v = .fin a ∨ ix s 0 = .fin a) : checkFillna true (.const v) s = List.replicate s.length (.fin a) := by
  refine series_ext (by simp) fun i hi => ?_
  have hi : i < s.length := by simpa using hi
  rw [ix_lt (show i < (List.replicate s.length (Val.fin a)).length by simpa using hi), List.getElem_replicate]
  have fa : Num (Val.fin a : Val K) := ⟨rfl, rfl⟩
  rcases latest (fun k => Num (ix s k)) i with ⟨j, h1, h2, h3⟩ | h1
  · rw [checkFillna_ffill h1 hi h2 h3]
    rcases h j (by omega) with e | e
    · rw [e] at h2; exact absurd h2.1 (by simp)
    · exact e
  · rcases h0 with e | e
    · rw [checkFillna_const_none hi h1, e]
    · exact absurd (e ▸ fa) (h1 0 (Nat.zero_le _))

theorem OnlyA.foldMin {a : K} : ∀ {l : List (Val K)} {x : Val K}, (∀ v ∈ l, v = .fin a) → x = .fin a →
    l.foldl (fun a b => if b <. a then b else a) x = .fin a
  | [], _, _, hx => hx
  | y :: l, x, h, hx => by
    refine OnlyA.foldMin (l := l) (x := if y <. x then y else x) (fun v hv => h v (List.mem_cons_of_mem _ hv)) ?_
    rw [hx, h y (List.mem_cons_self)]
    split_ifs <;> rfl

theorem OnlyA.foldMax {a : K} : ∀ {l : List (Val K)} {x : Val K}, (∀ v ∈ l, v = .fin a) → x = .fin a →
    l.foldl (fun a b => if a <. b then b else a) x = .fin a
  | [], _, _, hx => hx
  | y :: l, x, h, hx => by
    refine OnlyA.foldMax (l := l) (x := if x <. y then y else x) (fun v hv => h v (List.mem_cons_of_mem _ hv)) ?_
    rw [hx, h y (List.mem_cons_self)]
    split_ifs <;> rfl

theorem OnlyA.valid {a : K} {l : List (Val K)} (h : ∀ v ∈ l, OnlyA a v) : ∀ v ∈ TA.valid l, v = .fin a := fun v hv => by
  unfold TA.valid at hv
  rw [List.mem_filter] at hv
  rcases h v hv.1 with e | e
  · rw [e] at hv; simp at hv
  · exact e

theorem OnlyA.aggMin {a : K} {l : List (Val K)} (h : ∀ v ∈ l, OnlyA a v) (mp : Nat) : OnlyA a (aggMin mp l) := by
  unfold TA.aggMin
  split_ifs
  · have hv := OnlyA.valid h
    revert hv
    cases TA.valid l with
    | nil => exact fun _ => .inl rfl
    | cons x l => exact fun hv => .inr (OnlyA.foldMin (fun v h => hv v (List.mem_cons_of_mem _ h)) (hv x List.mem_cons_self))
  · exact .inl rfl

theorem OnlyA.aggMax {a : K} {l : List (Val K)} (h : ∀ v ∈ l, OnlyA a v) (mp : Nat) : OnlyA a (aggMax mp l) := by
  unfold TA.aggMax
  split_ifs
  · have hv := OnlyA.valid h
    revert hv
    cases TA.valid l with
    | nil => exact fun _ => .inl rfl
    | cons x l => exact fun hv => .inr (OnlyA.foldMax (fun v h => hv v (List.mem_cons_of_mem _ h)) (hv x List.mem_cons_self))
  · exact .inl rfl

theorem OnlyA.roll {a : K} {s : Series (Val K)} (h : ∀ i, i < s.length → OnlyA a (ix s i)) {agg : List (Val K) → Val K}
    (ha : ∀ l, (∀ v ∈ l, OnlyA a v) → OnlyA a (agg l)) (w : Nat) {i : Nat} (hi : i < s.length) : OnlyA a (ix (roll w agg s) i) := by
  rw [ix_roll' hi]
  refine ha _ fun v hv => ?_
  obtain ⟨j, hj, rfl⟩ := List.mem_map.1 hv
  rw [mem_winIx] at hj
  rcases h j (by omega) with e | e
  · exact .inl (by rw [e]; rfl)
  · exact .inr (by rw [e]; rfl)

/-- the stochastic of a column that never moves -/
theorem ofRsi_flat {a : K} {s : Series (Val K)} (h : ∀ i, i < s.length → OnlyA a (ix s i)) (w : Nat) :
    StochRSI.ofRsi s w = nans s.length := by
  refine nans_of (by simp [StochRSI.ofRsi, sdiv, ssub]) fun i hi => ?_
  unfold StochRSI.ofRsi
  dsimp only
  rw [ix_sdiv (by simp [ssub]; exact hi), ix_ssub hi, ix_ssub (by simp [rollMax]; exact hi)]
  have h1 : OnlyA a (ix (rollMin w w s) i) := OnlyA.roll h (fun l hl => OnlyA.aggMin hl w) w hi
  have h2 : OnlyA a (ix (rollMax w w s) i) := OnlyA.roll h (fun l hl => OnlyA.aggMax hl w) w hi
  rcases h i hi with e | e <;> rcases h1 with e1 | e1 <;> rcases h2 with e2 | e2 <;> rw [e, e1, e2] <;>
    simp [zero_over_zero]

/-! ## Moves out of nothing: the RSI -/

theorem ewm_zero_state (a : Val K) (n : Nat) : (List.replicate (n + 1) (Val.fin (0 : K))).foldl (ewmStep a) ewmInit = ⟨.fin 0, lit 1, n + 1⟩ := by
  induction n with
  | zero => simp [ewmStep, ewmInit, nan]
  | succ n ih =>
    rw [List.replicate_succ', List.foldl_append, ih]
    simp [ewmStep]

theorem rsi_nans (n w : Nat) (fl : Bool) :
    RSI.run (nans n : Series (Val K)) w fl = tab n fun i => if max (minp fl w) 1 ≤ i + 1 then .fin 100 else .nan := by
  have hu : RSI.up (nans n : Series (Val K)) = List.replicate n (.fin 0) := by
    unfold RSI.up; rw [nans_sdiff]; simp [nans, List.map_replicate]
  have hd : RSI.down (nans n : Series (Val K)) = List.replicate n (.fin 0) := by
    unfold RSI.down; rw [nans_sdiff]; simp [nans, List.map_replicate]
  have he : ∀ (a : Val K) (mp i : Nat), i < n → ix (ewm a mp (List.replicate n (.fin (0 : K)))) i = if max mp 1 ≤ i + 1 then .fin 0 else .nan := by
    intro a mp i hi
    unfold ewm
    rw [show (List.replicate n (Val.fin (0 : K))).map clean = List.replicate n (.fin 0) by simp [List.map_replicate],
      ix_pre (by simpa using hi), List.take_replicate, Nat.min_eq_left (by omega), ewm_zero_state]
    rfl
  refine series_ext (by simp [RSI.run, hu]) fun i hi => ?_
  have hi : i < n := by simpa [RSI.run, hu] using hi
  unfold RSI.run
  dsimp only
  rw [hu, hd, ix_zip2 (by simpa using hi), ix_tab_lt hi, he _ _ i hi]
  split_ifs <;> simp_all

/-! ## The loops -/

theorem kama_nans (n w p1 p2 : Nat) (fl : Bool) : KAMA.run (nans n : Series (Val K)) w p1 p2 fl = nans n := by
  unfold KAMA.run
  dsimp only
  rw [nans_length]
  refine tab_nan fun i => ?_
  generalize KAMA.sc (nans n : Series (Val K)) w p1 p2 fl = sc
  induction i with
  | zero =>
    show (KAMA.step sc (nans n) 0 (nan, true)).1 = _
    unfold KAMA.step
    rw [ix_nans]
    split_ifs <;> rfl
  | succ i ih =>
    show (KAMA.step sc (nans n) (i + 1) (iter (KAMA.step sc (nans n)) (nan, true) (i + 1))).1 = _
    unfold KAMA.step at ih ⊢
    rw [ix_nans]
    split_ifs
    · rfl
    · rfl
    · dsimp only; rw [ih]; simp

theorem atr_nans (n w : Nat) : (ATR.run (nans n : Series (Val K)) (nans n) (nans n) w).length = n ∧
    ∀ i, i < n → ix (ATR.run (nans n : Series (Val K)) (nans n) (nans n) w) i = if i < w - 1 then .fin 0 else .nan := by
  unfold ATR.run
  dsimp only
  simp only [nans_shift', nans_trueRange, nans_length]
  split_ifs with h
  · refine ⟨by simp, fun i hi => ?_⟩
    rw [if_neg (by omega)]
    exact ix_nans n i
  · refine ⟨by simp, fun i hi => ?_⟩
    rw [ix_tab_lt hi]
    induction i with
    | zero =>
      show ATR.step (nans n) w 0 (lit 0) = _
      unfold ATR.step
      rw [take_nans, nans_smean]
      split_ifs <;> first | omega | simp
    | succ i ih =>
      show ATR.step (nans n) w (i + 1) (iter (ATR.step (nans n) w) (lit 0) (i + 1)) = _
      unfold ATR.step
      rw [take_nans, nans_smean, ix_nans]
      split_ifs <;> first | omega | simp

theorem nvi_nans (n : Nat) : NVI.run (nans n : Series (Val K)) (nans n) = List.replicate n (.fin 1000) := by
  unfold NVI.run
  rw [nans_length, ← tab_flat]
  refine List.map_congr_left fun i hi => ?_
  clear hi
  induction i with
  | zero => show NVI.step (nans n) (nans n) 0 nan = _; unfold NVI.step; simp
  | succ i ih =>
    show NVI.step (nans n) (nans n) (i + 1) (iter (NVI.step (nans n) (nans n)) nan (i + 1)) = _
    rw [ih]
    unfold NVI.step
    rw [ix_nans, ix_nans]
    simp

theorem gtFlag_nans (n : Nat) (t : Series (Val K)) : gtFlag (nans n) t = List.replicate n (.fin 0) := by
  unfold gtFlag zip2
  simp only [ix_nans, nans_length]
  rw [← tab_flat]
  simp

theorem ltFlag_nans (n : Nat) (t : Series (Val K)) : ltFlag (nans n) t = List.replicate n (.fin 0) := by
  unfold ltFlag zip2
  simp only [ix_nans, nans_length]
  rw [← tab_flat]
  simp

theorem mfi_nans (n w mp : Nat) :
    sdiv (rollApply MFI.pos w mp (nans n : Series (Val K))) (sabs (rollApply MFI.neg w mp (nans n))) = nans n := by
  by_cases h : mp = 0
  · subst h
    have hz : ∀ m : Nat, sumL (List.replicate m (Val.fin (0 : K))) = .fin 0 := fun m => by
      unfold sumL
      induction m with
      | zero => simp
      | succ m ih => rw [List.replicate_succ, List.foldl_cons]; simpa using ih
    have hp : ∀ m : Nat, MFI.pos (nans m : Series (Val K)) = .fin 0 := fun m => by
      unfold MFI.pos; simpa [nans, List.map_replicate] using hz m
    have hn : ∀ m : Nat, MFI.neg (nans m : Series (Val K)) = .fin 0 := fun m => by
      unfold MFI.neg; simpa [nans, List.map_replicate] using hz m
    refine nans_of (by simp [sdiv, rollApply, nans_roll]) fun i hi => ?_
    unfold rollApply
    rw [nans_roll, nans_roll, ix_sdiv (by simpa using hi), sabs, ix_map (by simpa using hi), ix_tab_lt hi, ix_tab_lt hi]
    unfold aggApply
    rw [if_pos (Nat.zero_le _), if_pos (Nat.zero_le _), hp, hn]
    simp [zero_over_zero]
  · rw [nans_rollApply _ _ _ h]; simp

/-! ### The ADX -/

theorem OnlyA.add {u v : Val K} (h : OnlyA 0 u) (h' : OnlyA 0 v) : OnlyA 0 (u +. v) := by
  rcases h with rfl | rfl
  · exact .inl (nan_add _)
  · rcases h' with rfl | rfl
    · exact .inl (add_nan _)
    · exact .inr (by simp)

theorem OnlyA.mul {u : Val K} (h : OnlyA 0 u) (a : K) : OnlyA 0 (u *. .fin a) := by
  rcases h with rfl | rfl
  · exact .inl (nan_mul _)
  · exact .inr (by simp)

theorem OnlyA.div {u : Val K} (h : OnlyA 0 u) {a : K} (ha : a ≠ 0) : OnlyA 0 (u /. .fin a) := by
  rcases h with rfl | rfl
  · exact .inl (nan_div _)
  · exact .inr (by rw [fin_div _ _ ha]; simp)

theorem wilder_nans (n w : Nat) : (ADX.wilder (nans n : Series (Val K)) w).length = n - (w - 1) ∧
    ∀ i, OnlyA 0 (ix (ADX.wilder (nans n : Series (Val K)) w) i) := by
  have hl : (ADX.wilder (nans n : Series (Val K)) w).length = n - (w - 1) := by simp [ADX.wilder]
  refine ⟨hl, fun i => ?_⟩
  by_cases hi : i < n - (w - 1)
  · unfold ADX.wilder
    dsimp only
    rw [nans_length, ix_tab_lt hi]
    split_ifs with h1
    · right
      unfold ADX.wilderAt sdropna
      rw [valid_nans]
      simp [sumL]
    · left
      obtain ⟨j, rfl⟩ : ∃ j, i = j + 1 := ⟨i - 1, by omega⟩
      unfold ADX.wilderAt
      dsimp only
      rw [ix_nans]
      simp
    · right; simp
  · left; exact ix_ge (by rw [hl]; omega)

theorem di_onlyA {t d : Val K} (ht : OnlyA 0 t) : OnlyA 0 (ADX.di t d) := by
  unfold ADX.di
  rcases ht with rfl | rfl
  · left; simp
  · right; simp

theorem adx_run_nans (n w : Nat) (fl : Bool) : ADX.run (nans n : Series (Val K)) (nans n) (nans n) w fl =
    ⟨n, w, ADX.wilder (nans n) w, ADX.wilder (nans n) w, ADX.wilder (nans n) w, fl⟩ := by
  have h1 : ADX.range (nans n : Series (Val K)) (nans n) (nans n) = nans n := by
    unfold ADX.range getMax
    rw [nans_zip2 (fun v => by simp [npMax2, nan]), nans_ssub]
  have h2 : ∀ t : Series (Val K), ADX.dm (nans n) t = nans n := fun t => by
    unfold ADX.dm
    exact nans_zip2 (fun v => by simp) n t
  unfold ADX.run ADX.pos ADX.neg
  simp only [h1, h2, nans_shift', nans_ssub, nans_length]

theorem sum_onlyA : ∀ {l : List (Val K)} {x : Val K}, OnlyA 0 x → (∀ v ∈ l, OnlyA 0 v) → OnlyA 0 (l.foldl Flt.add x)
  | [], _, hx, _ => hx
  | y :: l, _, hx, h => sum_onlyA (l := l) (hx.add (h y List.mem_cons_self)) fun v hv => h v (List.mem_cons_of_mem _ hv)

theorem adx_nans {n w : Nat} (hw : w ≠ 0) {o : ADX (Val K)} (ho : o = ⟨n, w, ADX.wilder (nans n) w, ADX.wilder (nans n) w, ADX.wilder (nans n) w, true⟩) :
    (∀ out, o.adx = .ok out → out = List.replicate n (.fin 0)) ∧ o.adxPos = List.replicate n (.fin 0) ∧ o.adxNeg = List.replicate n (.fin 0) := by
  obtain ⟨hl, hz⟩ := wilder_nans (K := K) n w
  have hp : ∀ d : Series (Val K), checkFillna true (.const (lit 20)) (ADX.place n w (ADX.wilder (nans n) w) d) = List.replicate n (.fin 0) := by
    intro d
    have hl : (ADX.place n w (ADX.wilder (nans n) w) d).length = n := by simp [ADX.place]
    by_cases h0 : n = 0
    · subst h0; simp [ADX.place, tab, checkFillna, replaceInf, fillConst, ffill, pre]
    rw [onlyA_fill (a := 0) ?_ (.inr ?_), hl]
    · intro i hi
      rw [hl] at hi
      unfold ADX.place
      rw [ix_tab_lt hi]
      split_ifs
      · exact di_onlyA (hz _)
      · right; simp
    · unfold ADX.place
      rw [ix_tab_lt (by omega), if_neg (by omega)]; simp
  rw [ho]
  refine ⟨fun out h => ?_, hp _, hp _⟩
  unfold ADX.adx at h
  dsimp only at h
  rw [hl] at h
  split_ifs at h with h1
  rw [← Except.ok.inj h]
  have hdx : ∀ i, OnlyA 0 (ix (ADX.dx (⟨n, w, ADX.wilder (nans n) w, ADX.wilder (nans n) w, ADX.wilder (nans n) w, true⟩ : ADX (Val K))) i) := by
    intro i
    by_cases hi : i < n - (w - 1)
    · unfold ADX.dx
      dsimp only
      rw [ix_tab_lt (by rw [hl]; exact hi)]
      have q := di_onlyA (d := ix (ADX.wilder (nans n : Series (Val K)) w) i) (hz i)
      rcases q with e | e <;> rw [e]
      · left; simp
      · right; simp
    · left; exact ix_ge (by simp [ADX.dx, hl]; omega)
  generalize ADX.dx (⟨n, w, ADX.wilder (nans n) w, ADX.wilder (nans n) w, ADX.wilder (nans n) w, true⟩ : ADX (Val K)) = dx at hdx
  have hw' : (w : K) ≠ 0 := by exact_mod_cast hw
  have ha : ∀ i, OnlyA 0 (ADX.adxAt dx w i) := by
    intro i
    induction i with
    | zero => exact .inr (by simp [ADX.adxAt])
    | succ i ih =>
      unfold ADX.adxAt
      split_ifs with q1 q2
      · exact .inr (by simp)
      · unfold npMean sumL
        by_cases hd : (dx.take w).length = 0
        · rw [List.eq_nil_of_length_eq_zero hd]
          left
          simpa [natF] using zero_over_zero
        · rw [natF_fin]
          refine OnlyA.div (sum_onlyA (.inr (by simp)) fun v hv => ?_) (by exact_mod_cast hd)
          obtain ⟨j, hj, rfl⟩ := List.getElem_of_mem (List.mem_of_mem_take hv)
          rw [← ix_lt hj]
          exact hdx j
      · rw [natF_fin, natF_fin]
        exact ((ih.mul _).add (hdx i)).div hw'
  have hlen : (List.replicate (w - 1) (lit 0) ++ tab (n - (w - 1)) (ADX.adxAt dx w) : Series (Val K)).length = n := by
    simp; omega
  have hrow : ∀ i, i < n → ix (List.replicate (w - 1) (lit 0) ++ tab (n - (w - 1)) (ADX.adxAt dx w) : Series (Val K)) i =
      if i < w - 1 then .fin 0 else ADX.adxAt dx w (i - (w - 1)) := by
    intro i hi
    rw [ix_lt (by rw [hlen]; exact hi), List.getElem_append]
    simp only [List.length_replicate, List.getElem_replicate]
    split_ifs
    · simp
    · simp [tab]
  rw [onlyA_fill (a := 0) ?_ (.inr ?_), hlen]
  · intro i hi
    rw [hrow i (hlen ▸ hi)]
    split_ifs
    · exact .inr rfl
    · exact ha _
  · rw [hrow 0 (by omega)]
    split_ifs
    · rfl
    · simp [ADX.adxAt]

/-! ### The parabolic stop -/

theorem psar_nans {n : Nat} (hn : 0 < n) (st mx : Val K) (fl : Bool) {o : PSAR (Val K)}
    (ho : PSAR.new (nans n) (nans n) (nans n) .positional st mx fl = .ok o) : o = ⟨nans n, nans n, nans n, fl⟩ := by
  rw [PSAR.new_eq _ _ _ _ _ _ (by simpa using hn)] at ho
  rw [← Except.ok.inj ho]
  have step : ∀ (q : PCore (Val K)) (h0 l0 h1 l1 h2 l2 : Val K), q.upTrend = true → q.val = .nan →
      (pcore st mx q h0 l0 h1 l1 h2 l2).upTrend = true ∧ (pcore st mx q h0 l0 h1 l1 h2 l2).val = .nan := by
    intro q h0 l0 h1 l1 h2 l2 hu hv
    have hp : q.val +. (q.af *. (q.high -. q.val)) = .nan := by rw [hv]; simp
    unfold pcore
    dsimp only
    rw [if_pos hu, hp]
    simp only [lt_nan, Bool.false_eq_true, if_false]
    split_ifs <;> exact ⟨rfl, rfl⟩
  have hc : ∀ k, 1 ≤ k → (PSAR.cores (nans n) (nans n) (nans n) st mx k).upTrend = true ∧ (PSAR.cores (nans n) (nans n) (nans n) st mx k).val = .nan := by
    intro k hk
    induction k, hk using Nat.le_induction with
    | base => exact step ⟨true, st, ix (nans n) 0, ix (nans n) 0, ix (nans n) 1⟩ (ix (nans n) 2) (ix (nans n) 2) (ix (nans n) 1) (ix (nans n) 1) (ix (nans n) 0) (ix (nans n) 0) rfl (ix_nans n 1)
    | succ k hk ih => exact step _ (ix (nans n) (k + 2)) (ix (nans n) (k + 2)) (ix (nans n) (k + 1)) (ix (nans n) (k + 1)) (ix (nans n) k) (ix (nans n) k) ih.1 ih.2
  have e0 : ∀ {f : Nat → Val K}, (∀ i, f i = .nan) → tab (nans n : Series (Val K)).length f = nans n := fun h => by
    rw [nans_length]; exact tab_nan h
  congr 1
  · exact e0 fun i => by
      split_ifs with h
      · exact ix_nans n i
      · exact (hc _ (by omega)).2
  · exact e0 fun i => by
      split_ifs with h
      · exact (hc _ (by omega)).2
      · rfl
  · exact e0 fun i => by
      split_ifs with h
      · exact (hc _ (by omega)).2
      · rfl

theorem psar_flag_nans (n : Nat) : PSAR.flag (nans n : Series (Val K)) (nans n) = List.replicate n (.fin 0) := by
  unfold PSAR.flag
  rw [nans_length, ← tab_flat]
  refine List.map_congr_left fun i _ => ?_
  dsimp only
  rw [ix_nans]
  simp

end

/-! ## The table -/

theorem highs_noBar (n : Nat) : highs (List.replicate n (noBar : Bar (Val ℝ))) = nans n := by simp [highs, nans, noBar]
theorem lows_noBar (n : Nat) : lows (List.replicate n (noBar : Bar (Val ℝ))) = nans n := by simp [lows, nans, noBar]
theorem closes_noBar (n : Nat) : closes (List.replicate n (noBar : Bar (Val ℝ))) = nans n := by simp [closes, nans, noBar]
theorem volumes_noBar (n : Nat) : volumes (List.replicate n (noBar : Bar (Val ℝ))) = nans n := by simp [volumes, nans, noBar]

theorem guard_ok {α β : Type} {c : Except PyErr α} {f : α → Except PyErr β} {out : β} (h : c >>= f = .ok out) : ∃ a, c = .ok a ∧ f a = .ok out := by
  cases c with
  | error e => cases h
  | ok a => exact ⟨a, rfl, h⟩

theorem map_ok {α β : Type} {c : Except PyErr α} {f : α → β} {out : β} (h : c.map f = .ok out) : ∃ a, c = .ok a ∧ out = f a := by
  cases c with
  | error e => cases h
  | ok a => exact ⟨a, rfl, (Except.ok.inj h).symm⟩

theorem const_rows {n : Nat} {fl : Bool} {v : Val ℝ} : checkFillna fl (.const v) (nans n) = tab n fun _ => if fl then v else .nan := by
  rw [nans_check, tab_flat]

theorem back_rows {n : Nat} {fl : Bool} : checkFillna fl .back (nans n : Series (Val ℝ)) = tab n fun _ => if fl then .nan else .nan := by
  rw [nans_back]; simp only [ite_self, tab_flat]; rfl

theorem flag_rows {n : Nat} {fl : Bool} : checkFillna fl (.const (lit 0)) (List.replicate n (.fin 0 : Val ℝ)) = tab n fun _ => if fl then .fin 0 else .fin 0 := by
  rw [flat_check fl _ _ rfl rfl]; simp only [ite_self, tab_flat]

theorem psar_len {n : Nat} {s m : Val ℝ} {fl : Bool} {o : PSAR (Val ℝ)} (h : PSAR.new (nans n) (nans n) (nans n) .positional s m fl = .ok o) :
    0 < n := by
  unfold PSAR.new at h
  split_ifs at h with q
  rw [nans_length] at q
  omega

theorem stochrsi_nans {n w s1 s2 : Nat} {fl : Bool} {o : StochRSI (Val ℝ)} (h : StochRSI.new (nans n) w s1 s2 fl = .ok o) :
    o = ⟨nans n, nans n, s2, fl⟩ := by
  obtain ⟨r, h1, h2⟩ := guard_ok h
  have hr : r.length = n ∧ ∀ i, i < r.length → OnlyA 100 (ix r i) := by
    unfold rsi at h1
    split_ifs at h1
    rw [← Except.ok.inj h1, rsi_nans]
    have hc : ∀ i, i < n → OnlyA 100 (ix (tab n fun i => if max (minp fl w) 1 ≤ i + 1 then Val.fin (100 : ℝ) else .nan) i) := by
      intro i hi
      rw [ix_tab_lt hi]
      split_ifs
      exacts [.inr rfl, .inl rfl]
    cases fl
    · rw [noFill]
      exact ⟨by simp, fun i hi => hc i (by simpa using hi)⟩
    · by_cases h0 : n = 0
      · subst h0
        simp [checkFillna, tab, replaceInf, ffill, pre, fillConst]
      rw [onlyA_fill (a := 100) (fun i hi => hc i (by simpa using hi)) (.inr (by rw [ix_tab_lt (by omega)]; simp [minp]))]
      refine ⟨by simp, fun i hi => .inr ?_⟩
      rw [ix_lt hi]; simp
  have e := (Except.ok.inj h2).symm
  rw [e, ofRsi_flat hr.2, hr.1]
  simp only [nans_rollMean]

theorem clv_nans (n : Nat) : smul (clv (nans n : Series (Val ℝ)) (nans n) (nans n)) (nans n) = nans n := by
  unfold clv
  simp only [nans_ssub, nans_sdiv, nans_fillConst]
  exact nans_zip2r mul_nan (by simp)

theorem obv_nans (n : Nat) : OBV.signed (nans n : Series (Val ℝ)) (nans n) = nans n := by
  unfold OBV.signed zip3
  simp only [ix_nans, nans_length]
  exact tab_nan fun i => by simp

theorem log_nans (n : Nat) : (nans n : Series (Val ℝ)).map FltFn.log = nans n := by
  unfold nans; rw [List.map_replicate]; rfl

theorem aroon_nans {n w : Nat} {fl : Bool} {o : Aroon (Val ℝ)} (h : Aroon.new (nans n) (nans n) w fl = .ok o) : o = ⟨nans n, nans n, fl⟩ := by
  unfold Aroon.new at h
  split_ifs at h
  rw [← Except.ok.inj h]
  unfold Aroon.run
  dsimp only
  have hm : (if fl then 1 else w + 1) ≠ 0 := by split_ifs <;> omega
  rw [nans_rollApply _ _ _ hm, nans_rollApply _ _ _ hm]

theorem keltner_nans {n w wa : Nat} {fl og : Bool} {k : Val ℝ} {o : Keltner (Val ℝ)}
    (h : Keltner.new (nans n) (nans n) (nans n) w wa fl og k = .ok o) : o = ⟨nans n, nans n, nans n, nans n, fl⟩ := by
  unfold Keltner.new at h
  cases og
  · rw [if_neg (by simp)] at h
    obtain ⟨-, -, h⟩ := guard_ok h
    obtain ⟨a, -, h⟩ := guard_ok h
    rw [← Except.ok.inj h]
    unfold Keltner.runAtr
    simp only [nans_ewm, nans_sadd, nans_ssub]
  · rw [if_pos rfl] at h
    obtain ⟨-, -, h⟩ := guard_ok h
    rw [← Except.ok.inj h]
    unfold Keltner.runOriginal typicalPrice
    simp only [nans_sadd, nans_ssub, nans_cmul, nans_divc, nans_rollMean]

theorem off_rows {n w mp : Nat} {off : Int} {fl : Bool} {c a b : Series (Val ℝ)} :
    Donchian.off ⟨c, a, b, w, mp, off, fl⟩ (List.replicate n (if fl then (lit 0 : Val ℝ) else .nan)) =
      tab n fun i => if fl then (if 0 ≤ (i : Int) - off ∧ (i : Int) - off < n then .fin 0 else .nan) else .nan := by
  have hix : ∀ i, ix (List.replicate n (if fl then (lit 0 : Val ℝ) else .nan)) i = if i < n then (if fl then .fin 0 else .nan) else .nan := by
    intro i
    by_cases hi : i < n
    · rw [ix_lt (by simpa using hi), if_pos hi, List.getElem_replicate]; simp
    · rw [if_neg hi]; exact ix_ge (by simp; omega)
  unfold Donchian.off
  dsimp only
  by_cases h0 : off ≠ 0
  · rw [if_pos h0]
    refine series_ext (by simp [shiftInt]) fun i hi => ?_
    have hi : i < n := by simpa [shiftInt] using hi
    unfold shiftInt
    rw [ix_tab_lt (by simpa using hi), ix_tab_lt hi, hix]
    cases fl
    · simp [nan]
    · simp only [if_true]
      split_ifs <;> first | rfl | omega
  · rw [if_neg h0]
    have h0 : off = 0 := by simpa using h0
    subst h0
    refine series_ext (by simp) fun i hi => ?_
    have hi : i < n := by simpa using hi
    rw [hix, ix_tab_lt hi, if_pos hi]
    cases fl
    · rfl
    · simp
      assumption

/-- missing columns give missing columns -/
macro "nan_simp" "[" ls:Lean.Parser.Tactic.simpLemma,* "]" : tactic =>
  `(tactic| (simp only [$ls,*, nans_shift', nans_shift, nans_smean, nans_sadd, nans_ssub, nans_smul, nans_sdiv, nans_cmul, nans_csub, nans_cadd, nans_cdiv, nans_mulc, nans_subc, nans_divc, nans_sabs, nans_sdiff, nans_rollMean, nans_rollMax, nans_rollMin, nans_ewm, nans_ema, nans_cumsum, nans_ffill, nans_pct, nans_trueRange, nans_ratio, gtFlag_nans, ltFlag_nans, nans_length, ite_self, const_rows, back_rows, flag_rows, lit_fin]; try norm_num))

/-- C115: the value of every output on every row of a frame without data. -/
theorem unpriced_rows (x : Ind (Val ℝ)) (hw : ∀ w, x = .wma w → 1 ≤ w) (hm : ∀ f s, x = .massIndex f s → 1 ≤ s) (fl : Bool)
    (ha : x.isAdx → fl = true) (n : Nat) {out : Series (Val ℝ)} (h : x.eval fl (List.replicate n noBar) = .ok out) :
    out = tab n fun i => if fl then x.unpriced n i else x.unpricedRaw i := by
  cases x <;> simp only [Ind.eval, highs_noBar, lows_noBar, closes_noBar, volumes_noBar] at h <;> unfold Ind.unpriced Ind.unpricedRaw <;> dsimp only
  case rsi w =>
    unfold TA.rsi at h
    split_ifs at h
    rw [← Except.ok.inj h, rsi_nans]
    cases fl
    · simp only [checkFillna, Bool.false_eq_true, if_false, minp]
      refine List.map_congr_left fun i _ => ?_
      by_cases q : w - 1 ≤ i
      · rw [if_pos (by omega), if_pos q]
      · rw [if_neg (by omega), if_neg q]
    · simp only [minp, if_true, Nat.zero_le, max_eq_right, Nat.le_add_left, tab_flat]
      rw [flat_check _ _ _ rfl rfl]
  case nvi =>
    unfold negativeVolumeIndex at h
    split_ifs at h
    rw [← Except.ok.inj h, nvi_nans, flat_check _ _ _ rfl rfl]
    simp only [ite_self, tab_flat]
  case atr w =>
    unfold averageTrueRange at h
    split_ifs at h
    rw [← Except.ok.inj h]
    obtain ⟨e1, e2⟩ := atr_nans (K := ℝ) n w
    cases fl
    · refine series_ext (by rw [noFill, e1]; simp) fun i hi => ?_
      have hi : i < n := by rw [noFill, e1] at hi; exact hi
      rw [noFill, ix_tab_lt hi, e2 i hi]
      rfl
    · rw [onlyA_fill (a := 0) (fun i hi => by rw [e2 i (e1 ▸ hi)]; split_ifs; exacts [.inr rfl, .inl rfl]) (.inl (by simp)), e1]
      simp only [if_true, tab_flat]
  case kama w p1 p2 =>
    rw [← Except.ok.inj h, kama, kama_nans]
    unfold checkFillna
    cases fl
    · simp only [Bool.false_eq_true, if_false, tab_flat]; rfl
    · simp only [if_true, nans_replaceInf, nans_ffill, fillSer, tab_flat]
      unfold zip2
      simp only [ix_nans, nans_length]
      simp [tab_flat]
  case adx w =>
    obtain ⟨o, h1, h2⟩ := guard_ok h
    obtain rfl := ha trivial
    unfold ADX.new at h1
    split_ifs at h1 with q1
    rw [(adx_nans q1 (by rw [← Except.ok.inj h1, adx_run_nans])).1 out h2]
    simp only [if_true, tab_flat]
  case adxPos w =>
    obtain ⟨o, h1, h2⟩ := map_ok h
    obtain rfl := ha trivial
    unfold ADX.new at h1
    split_ifs at h1 with q1
    rw [h2, (adx_nans q1 (by rw [← Except.ok.inj h1, adx_run_nans])).2.1]
    simp only [if_true, tab_flat]
  case adxNeg w =>
    obtain ⟨o, h1, h2⟩ := map_ok h
    obtain rfl := ha trivial
    unfold ADX.new at h1
    split_ifs at h1 with q1
    rw [h2, (adx_nans q1 (by rw [← Except.ok.inj h1, adx_run_nans])).2.2]
    simp only [if_true, tab_flat]
  case psar s m =>
    obtain ⟨o, h1, h2⟩ := map_ok h
    rw [h2, psar_nans (psar_len h1) _ _ _ h1]
    exact back_rows
  case psarUp s m =>
    obtain ⟨o, h1, h2⟩ := map_ok h
    rw [h2, psar_nans (psar_len h1) _ _ _ h1]
    exact back_rows
  case psarDown s m =>
    obtain ⟨o, h1, h2⟩ := map_ok h
    rw [h2, psar_nans (psar_len h1) _ _ _ h1]
    exact back_rows
  case psarUpInd s m =>
    obtain ⟨o, h1, h2⟩ := map_ok h
    rw [h2, psar_nans (psar_len h1) _ _ _ h1, PSAR.psarUpIndicator, psar_flag_nans]
    simp only [ite_self, tab_flat]
  case psarDownInd s m =>
    obtain ⟨o, h1, h2⟩ := map_ok h
    rw [h2, psar_nans (psar_len h1) _ _ _ h1, PSAR.psarDownIndicator, psar_flag_nans]
    simp only [ite_self, tab_flat]
  case stochrsi w s1 s2 =>
    obtain ⟨o, h1, h2⟩ := map_ok h
    rw [h2, stochrsi_nans h1]
    unfold StochRSI.stochrsi
    simp only [const_rows, lit_fin]; norm_num
  case stochrsiK w s1 s2 =>
    obtain ⟨o, h1, h2⟩ := map_ok h
    rw [h2, stochrsi_nans h1]
    unfold StochRSI.stochrsiK
    simp only [const_rows, lit_fin]; norm_num
  case stochrsiD w s1 s2 =>
    obtain ⟨o, h1, h2⟩ := map_ok h
    rw [h2, stochrsi_nans h1]
    unfold StochRSI.stochrsiD
    simp only [nans_rollMean, const_rows, lit_fin]; norm_num
  case wma w =>
    rw [← Except.ok.inj h, TA.wma, nans_rollApply _ _ _ (by have := hw w rfl; omega)]
    simp only [const_rows, lit_fin]; norm_num
  case massIndex f s =>
    obtain ⟨-, -, h2⟩ := guard_ok h
    have e := (Except.ok.inj h2).symm
    have hs := hm f s rfl
    rw [e, Mass.run]
    simp only [nans_ssub, nans_ema, nans_sdiv, nans_rollSum]
    cases fl
    · rw [if_neg (by simp [minp]; omega)]
      simp only [const_rows, lit_fin]; norm_num
    · rw [if_pos (show minp true s = 0 from rfl), flat_check _ _ _ rfl rfl]
      simp only [if_true, tab_flat]
  case uo =>
    rw [← Except.ok.inj h]
    nan_simp [ultimateOscillator, UO.run, UO.avg, UO.buyingPressure]
  case stoch =>
    rw [← Except.ok.inj h]
    nan_simp [TA.stoch, Stoch.k]
  case stochSignal =>
    rw [← Except.ok.inj h]
    nan_simp [TA.stochSignal, Stoch.k]
  case roc =>
    rw [← Except.ok.inj h]
    nan_simp [TA.roc, ROC.run]
  case ao =>
    rw [← Except.ok.inj h]
    nan_simp [awesomeOscillator, AO.run]
  case williamsR =>
    rw [← Except.ok.inj h]
    nan_simp [TA.williamsR, WR.run]
  case ichimokuConv =>
    rw [← Except.ok.inj h]
    nan_simp [ichimokuConversionLine, Ichimoku.mid]
  case ichimokuBase =>
    rw [← Except.ok.inj h]
    nan_simp [ichimokuBaseLine, Ichimoku.mid]
  case ichimokuA =>
    rw [← Except.ok.inj h]
    nan_simp [TA.ichimokuA, Ichimoku.vis, Ichimoku.spanA, Ichimoku.mid]
  case ichimokuB =>
    rw [← Except.ok.inj h]
    nan_simp [TA.ichimokuB, Ichimoku.vis, Ichimoku.mid]
  case kst =>
    rw [← Except.ok.inj h]
    nan_simp [TA.kst, KST.run, KST.rocma]
  case kstSig =>
    rw [← Except.ok.inj h]
    nan_simp [TA.kstSig, KST.sig, KST.run, KST.rocma]
  case kstDiff =>
    rw [← Except.ok.inj h]
    nan_simp [TA.kstDiff, KST.sig, KST.run, KST.rocma]
  case dpo =>
    rw [← Except.ok.inj h]
    nan_simp [TA.dpo, DPO.run]
  case cci =>
    rw [← Except.ok.inj h]
    nan_simp [TA.cci, CCI.run, typicalPrice]
  case vortexPos =>
    rw [← Except.ok.inj h]
    nan_simp [TA.vortexPos, Vortex.vip, Vortex.trn]
  case vortexNeg =>
    rw [← Except.ok.inj h]
    nan_simp [TA.vortexNeg, Vortex.vin, Vortex.trn]
  case vortexDiff =>
    rw [← Except.ok.inj h]
    nan_simp [TA.vortexDiff, Vortex.vip, Vortex.vin, Vortex.trn]
  case bbMavg =>
    rw [← Except.ok.inj h]
    nan_simp [BB.new, BB.bollingerMavg]
  case bbHband =>
    rw [← Except.ok.inj h]
    nan_simp [BB.new, BB.bollingerHband]
  case bbLband =>
    rw [← Except.ok.inj h]
    nan_simp [BB.new, BB.bollingerLband]
  case bbWband =>
    rw [← Except.ok.inj h]
    nan_simp [BB.new, BB.bollingerWband]
  case bbPband =>
    rw [← Except.ok.inj h]
    nan_simp [BB.new, BB.bollingerPband]
  case bbHi =>
    rw [← Except.ok.inj h]
    nan_simp [BB.new, BB.bollingerHbandIndicator]
    rw [flat_check _ _ _ rfl rfl, tab_flat]
  case bbLi =>
    rw [← Except.ok.inj h]
    nan_simp [BB.new, BB.bollingerLbandIndicator]
    rw [flat_check _ _ _ rfl rfl, tab_flat]
  case adi =>
    rw [← Except.ok.inj h]
    nan_simp [accDistIndex, ADI.run, clv_nans]
  case obv =>
    rw [← Except.ok.inj h]
    nan_simp [onBalanceVolume, OBV.run, obv_nans]
  case cmf =>
    rw [← Except.ok.inj h]
    nan_simp [chaikinMoneyFlow, CMF.run, clv_nans]
  case eom =>
    rw [← Except.ok.inj h]
    nan_simp [easeOfMovement, EOM.run]
  case smaEom =>
    rw [← Except.ok.inj h]
    nan_simp [smaEaseOfMovement, EOM.run]
  case mfi =>
    rw [← Except.ok.inj h]
    nan_simp [moneyFlowIndex, MFI.run, MFI.flow, typicalPrice, mfi_nans]
  case vwap =>
    rw [← Except.ok.inj h]
    nan_simp [volumeWeightedAveragePrice, VWAP.run, typicalPrice]
  case dr =>
    rw [← Except.ok.inj h]
    nan_simp [dailyReturn, DR.run]
  case dlr =>
    rw [← Except.ok.inj h]
    nan_simp [dailyLogReturn, DLR.run, log_nans]
  case vpt sm =>
    rw [← Except.ok.inj h]
    rcases sm with _ | _ | k <;> nan_simp [volumePriceTrend, VPT.run, Bool.false_eq_true, if_false]
  case sma w =>
    rw [← Except.ok.inj h]
    nan_simp [smaIndicator, TA.sma, tab_flat]
    rfl
  case cr =>
    unfold cumulativeReturn at h
    split_ifs at h
    rw [← Except.ok.inj h]
    nan_simp [CR.run]
  case tsi =>
    obtain ⟨-, -, h⟩ := guard_ok h
    obtain ⟨-, -, h⟩ := guard_ok h
    rw [← Except.ok.inj h]
    nan_simp [TSI.run]
  case trix =>
    obtain ⟨-, -, h⟩ := guard_ok h
    rw [← Except.ok.inj h]
    nan_simp [TRIX.run]
  case stc =>
    obtain ⟨-, -, h⟩ := guard_ok h
    obtain ⟨-, -, h⟩ := guard_ok h
    obtain ⟨-, -, h⟩ := guard_ok h
    obtain ⟨-, -, h⟩ := guard_ok h
    rw [← Except.ok.inj h]
    nan_simp [STC.run, STC.stochOf]
  case fi =>
    obtain ⟨-, -, h⟩ := guard_ok h
    rw [← Except.ok.inj h]
    nan_simp [FI.run]
  case ema w =>
    obtain ⟨-, -, h⟩ := guard_ok h
    rw [← Except.ok.inj h]
    nan_simp [tab_flat]
    rfl
  case ulcer w =>
    obtain ⟨_, q, h⟩ := guard_ok h
    rw [← Except.ok.inj h]
    have hw : w ≠ 0 := by
      unfold chkRoll at q
      split_ifs at q
      omega
    nan_simp [Ulcer.drawdown, nans_rollApply _ _ _ hw]
  case ppo =>
    obtain ⟨o, h1, h2⟩ := map_ok h
    obtain ⟨-, -, h1⟩ := guard_ok h1
    obtain ⟨-, -, h1⟩ := guard_ok h1
    obtain ⟨-, -, h1⟩ := guard_ok h1
    rw [h2, ← Except.ok.inj h1]
    nan_simp [PPO.run, PPO.ppo]
  case ppoSignal =>
    obtain ⟨o, h1, h2⟩ := map_ok h
    obtain ⟨-, -, h1⟩ := guard_ok h1
    obtain ⟨-, -, h1⟩ := guard_ok h1
    obtain ⟨-, -, h1⟩ := guard_ok h1
    rw [h2, ← Except.ok.inj h1]
    nan_simp [PPO.run, PPO.ppoSignal]
  case ppoHist =>
    obtain ⟨o, h1, h2⟩ := map_ok h
    obtain ⟨-, -, h1⟩ := guard_ok h1
    obtain ⟨-, -, h1⟩ := guard_ok h1
    obtain ⟨-, -, h1⟩ := guard_ok h1
    rw [h2, ← Except.ok.inj h1]
    nan_simp [PPO.run, PPO.ppoHist]
  case pvo =>
    obtain ⟨o, h1, h2⟩ := map_ok h
    obtain ⟨-, -, h1⟩ := guard_ok h1
    obtain ⟨-, -, h1⟩ := guard_ok h1
    obtain ⟨-, -, h1⟩ := guard_ok h1
    rw [h2, ← Except.ok.inj h1]
    nan_simp [PPO.run, PPO.ppo]
  case pvoSignal =>
    obtain ⟨o, h1, h2⟩ := map_ok h
    obtain ⟨-, -, h1⟩ := guard_ok h1
    obtain ⟨-, -, h1⟩ := guard_ok h1
    obtain ⟨-, -, h1⟩ := guard_ok h1
    rw [h2, ← Except.ok.inj h1]
    nan_simp [PPO.run, PPO.ppoSignal]
  case pvoHist =>
    obtain ⟨o, h1, h2⟩ := map_ok h
    obtain ⟨-, -, h1⟩ := guard_ok h1
    obtain ⟨-, -, h1⟩ := guard_ok h1
    obtain ⟨-, -, h1⟩ := guard_ok h1
    rw [h2, ← Except.ok.inj h1]
    nan_simp [PPO.run, PPO.ppoHist]
  case macd =>
    obtain ⟨o, h1, h2⟩ := map_ok h
    obtain ⟨-, -, h1⟩ := guard_ok h1
    obtain ⟨-, -, h1⟩ := guard_ok h1
    obtain ⟨-, -, h1⟩ := guard_ok h1
    rw [h2, ← Except.ok.inj h1]
    nan_simp [MACD.run, MACD.macd]
  case macdSignal =>
    obtain ⟨o, h1, h2⟩ := map_ok h
    obtain ⟨-, -, h1⟩ := guard_ok h1
    obtain ⟨-, -, h1⟩ := guard_ok h1
    obtain ⟨-, -, h1⟩ := guard_ok h1
    rw [h2, ← Except.ok.inj h1]
    nan_simp [MACD.run, MACD.macdSignal]
  case macdDiff =>
    obtain ⟨o, h1, h2⟩ := map_ok h
    obtain ⟨-, -, h1⟩ := guard_ok h1
    obtain ⟨-, -, h1⟩ := guard_ok h1
    obtain ⟨-, -, h1⟩ := guard_ok h1
    rw [h2, ← Except.ok.inj h1]
    nan_simp [MACD.run, MACD.macdDiff]
  case aroonUp w =>
    obtain ⟨o, h1, h2⟩ := map_ok h
    rw [h2, aroon_nans h1]
    nan_simp [Aroon.aroonUp]
  case aroonDown w =>
    obtain ⟨o, h1, h2⟩ := map_ok h
    rw [h2, aroon_nans h1]
    nan_simp [Aroon.aroonDown]
  case aroonInd w =>
    obtain ⟨o, h1, h2⟩ := map_ok h
    rw [h2, aroon_nans h1]
    nan_simp [Aroon.aroonIndicator]
  case kcMband =>
    obtain ⟨o, h1, h2⟩ := map_ok h
    rw [h2, keltner_nans h1]
    nan_simp [Keltner.mband]
  case kcHband =>
    obtain ⟨o, h1, h2⟩ := map_ok h
    rw [h2, keltner_nans h1]
    nan_simp [Keltner.hband]
  case kcLband =>
    obtain ⟨o, h1, h2⟩ := map_ok h
    rw [h2, keltner_nans h1]
    nan_simp [Keltner.lband]
  case kcWband =>
    obtain ⟨o, h1, h2⟩ := map_ok h
    rw [h2, keltner_nans h1]
    nan_simp [Keltner.wband]
  case kcPband =>
    obtain ⟨o, h1, h2⟩ := map_ok h
    rw [h2, keltner_nans h1]
    nan_simp [Keltner.pband]
  case kcHi =>
    obtain ⟨o, h1, h2⟩ := map_ok h
    rw [h2, keltner_nans h1]
    nan_simp [Keltner.hbandIndicator]
    rw [flat_check _ _ _ rfl rfl, tab_flat]
  case kcLi =>
    obtain ⟨o, h1, h2⟩ := map_ok h
    rw [h2, keltner_nans h1]
    nan_simp [Keltner.lbandIndicator]
    rw [flat_check _ _ _ rfl rfl, tab_flat]
  case dcHband =>
    obtain ⟨o, h1, h2⟩ := map_ok h
    obtain ⟨-, -, h1⟩ := guard_ok h1
    rw [h2, ← Except.ok.inj h1]
    nan_simp [Donchian.hband, Donchian.off, nans_back, nans_shiftInt, tab_flat]
    rfl
  case dcLband =>
    obtain ⟨o, h1, h2⟩ := map_ok h
    obtain ⟨-, -, h1⟩ := guard_ok h1
    rw [h2, ← Except.ok.inj h1]
    nan_simp [Donchian.lband, Donchian.off, nans_back, nans_shiftInt, tab_flat]
    rfl
  case dcMband =>
    obtain ⟨o, h1, h2⟩ := map_ok h
    obtain ⟨-, -, h1⟩ := guard_ok h1
    rw [h2, ← Except.ok.inj h1]
    nan_simp [Donchian.mband, Donchian.off, nans_back, nans_shiftInt, tab_flat]
    rfl
  case dcWband w off =>
    obtain ⟨o, h1, h2⟩ := map_ok h
    obtain ⟨-, -, h1⟩ := guard_ok h1
    rw [h2, ← Except.ok.inj h1]
    simp only [Donchian.wband, nans_ssub, nans_rollMax, nans_rollMean, nans_sdiv, nans_mulc, nans_check]
    exact off_rows
  case dcPband w off =>
    obtain ⟨o, h1, h2⟩ := map_ok h
    obtain ⟨-, -, h1⟩ := guard_ok h1
    rw [h2, ← Except.ok.inj h1]
    simp only [Donchian.pband, nans_ssub, nans_rollMax, nans_sdiv, nans_check]
    exact off_rows

/-- C115: the rows before the first price, whatever comes after them: for an output that takes nothing from later rows, the first `k` rows of a
frame whose first `k` rows have no data show the values of the table. -/
theorem unpriced_start (x : Ind (Val ℝ)) (hp : x.Plain) (hb : ¬ x.BackFill) (hw : ∀ w, x = .wma w → 1 ≤ w) (hm : ∀ f s, x = .massIndex f s → 1 ≤ s)
    (k : Nat) (future : List (Bar (Val ℝ))) {o out : Series (Val ℝ)} (ho : x.eval true (List.replicate k noBar) = .ok o)
    (h : x.eval true (List.replicate k noBar ++ future) = .ok out) : ∀ i, i < k → ix out i = x.unpriced k i := by
  intro i hi
  obtain ⟨out', h1, h2⟩ := no_lookahead x true hp (fun _ => hb) (List.replicate k noBar) future o ho
  have h1 : x.eval true (List.replicate k noBar ++ future) = .ok out' := h1
  rw [h] at h1
  rw [← Except.ok.inj h1, List.length_replicate, unpriced_rows x hw hm true (fun _ => rfl) k ho] at h2
  have e : ix (out.take k) i = ix out i := by
    unfold ix
    rw [List.getD_eq_getElem?_getD, List.getD_eq_getElem?_getD, List.getElem?_take_of_lt hi]
  rw [← e, h2, ix_tab_lt hi]
  rfl

section
variable {K : Type} [Field K] [LinearOrder K] [IsStrictOrderedRing K]

/-- Row `i` of `out` is the last number in `raw` up to row `i`. -/
def LastNumber (raw out : Series (Val K)) : Prop :=
  out.length = raw.length ∧ ∀ i, i < raw.length → ∃ j, j ≤ i ∧ (ix raw j).IsFin ∧ (∀ k, j < k → k ≤ i → ¬ (ix raw k).IsFin) ∧ ix out i = ix raw j

theorem num_isFin {v : Val K} : Num v ↔ v.IsFin := by
  cases v <;> simp [Num, Val.IsFin]

theorem lastNumber_fill {s : Series (Val K)} {v : Val K} (h0 : 0 < s.length → ix s 0 = .fin 0) : LastNumber s (checkFillna true (.const v) s) := by
  refine ⟨by simp, fun i hi => ?_⟩
  rcases latest (fun k => Num (ix s k)) i with ⟨j, h1, h2, h3⟩ | h1
  · exact ⟨j, h1, num_isFin.1 h2, fun k a b c => h3 k a b (num_isFin.2 c), checkFillna_ffill h1 hi h2 h3⟩
  · exact absurd (num_isFin.2 ⟨0, h0 (by omega)⟩) (h1 0 (Nat.zero_le _))

theorem pad_first {m n : Nat} {f : Nat → Val K} (hf : f 0 = .fin 0) (hl : 0 < (List.replicate m (lit 0) ++ tab n f).length) :
    ix (List.replicate m (lit 0) ++ tab n f) 0 = .fin 0 := by
  rw [ix_lt hl, List.getElem_append]
  split_ifs
  · simp
  · simpa [tab] using hf

/-- C115: the ADX and its two lines start with zeros, so their fill value (20 in the source) is never used: with `fillna=True` they show the last
number up to that row, on any data. -/
theorem adx_fill_unused {h l c : Series (Val K)} {w : Nat} {o o' : ADX (Val K)} (ho : ADX.new h l c w false = .ok o) (ho' : ADX.new h l c w true = .ok o') :
    LastNumber o.adxPos o'.adxPos ∧ LastNumber o.adxNeg o'.adxNeg ∧
      ∀ raw out, o.adx = .ok raw → o'.adx = .ok out → LastNumber raw out := by
  unfold ADX.new at ho ho'
  split_ifs at ho ho' with q1 q2 q3
  rw [← Except.ok.inj ho, ← Except.ok.inj ho']
  have hp : ∀ (n : Nat) (t d : Series (Val K)), 0 < (ADX.place n w t d).length → ix (ADX.place n w t d) 0 = .fin 0 := by
    intro n t d hl
    have hl : 0 < n := by simpa [ADX.place] using hl
    unfold ADX.place
    rw [ix_tab_lt hl, if_neg (by omega)]
    simp
  refine ⟨lastNumber_fill (hp _ _ _), lastNumber_fill (hp _ _ _), fun raw out h1 h2 => ?_⟩
  unfold ADX.adx at h1 h2
  split_ifs at h1 h2
  rw [← Except.ok.inj h1, ← Except.ok.inj h2]
  exact lastNumber_fill fun hl => pad_first (m := w - 1) (f := ADX.adxAt _ w) (by simp [ADX.adxAt]) hl

end

/-! ## Examples -/

section examples

/-- Three days before the listing: the RSI says 100, Williams %R -50, the vortex lines 1. -/
example : ∀ out, (Ind.rsi 14 : Ind (Val ℝ)).eval true (List.replicate 3 noBar) = .ok out → out = [.fin 100, .fin 100, .fin 100] := fun out h => by
  rw [unpriced_rows (.rsi 14) (by simp) (by simp) true (fun _ => rfl) 3 h]; rfl
example : ∀ out, (Ind.williamsR 14 : Ind (Val ℝ)).eval true (List.replicate 2 noBar) = .ok out → out = [.fin (-50), .fin (-50)] := fun out h => by
  rw [unpriced_rows (.williamsR 14) (by simp) (by simp) true (fun _ => rfl) 2 h]; rfl
/-- The constants computed on rationals, outputs of all four kinds. -/
example : vortexPos (qs [] ++ [.nan, .nan]) [.nan, .nan] [.nan, .nan] 2 true = [Val.fin 1, .fin (1 : ℚ)] := by decide +kernel
example : rsi ([.nan, .nan, .nan] : Series (Val ℚ)) 2 false = .ok [.nan, .fin 100, .fin 100] := by decide +kernel
example : moneyFlowIndex ([.nan, .nan] : Series (Val ℚ)) [.nan, .nan] [.nan, .nan] [.nan, .nan] 2 true = [.fin 50, .fin 50] := by decide +kernel
/-- A listing after two empty days: the filled rows at the start are the table's. -/
example : stoch ([.nan, .nan, .fin 4, .fin 6] : Series (Val ℚ)) [.nan, .nan, .fin 2, .fin 4] [.nan, .nan, .fin 3, .fin 5] 2 true =
    [.fin 50, .fin 50, .fin 50, .fin 75] := by decide +kernel
/-- A gap inside: the line falls silent for good, and what is shown is the last number, not 20. -/
example : ((ADX.new (qs [3, 5, 8, 9] ++ [.nan, .fin 9, .fin 12]) (qs [1, 2, 4, 5] ++ [.nan, .fin 6, .fin 7])
    (qs [2, 4, 6, 7] ++ [.nan, .fin 8, .fin 10]) 1 true).map (·.adxPos)) =
    .ok [.fin 0, .fin 0, .fin 75, .fin 25, .fin 25, .fin 25, .fin 25] := by decide +kernel

end examples

end TA
