import Verif.Props.C23
import Verif.Model.Adx
import Verif.Lemmas.Toy

/-! # C25, C26: ADX and the directional indicators -/

set_option linter.unusedSectionVars false

namespace TA
open Finset
variable {K : Type} [Field K] [LinearOrder K] [IsStrictOrderedRing K]

/-! ## The specification -/

/-- Wilder's running sum: the sum of rows `1..w`, then `s - s/w + f`, reading one new row at a time -/
def wil (f : Nat → K) (w : Nat) : Nat → K
  | 0 => ∑ j ∈ Finset.Ico 1 (w + 1), f j
  | i + 1 => wil f w i - wil f w i / w + f (w + 1 + i)

/-- true range of row `j ≥ 1` -/
def trv (h l c : Nat → K) (j : Nat) : K := max (h j) (c (j - 1)) - min (l j) (c (j - 1))
/-- upward directional movement of row `j ≥ 1` -/
def dmUp (h l : Nat → K) (j : Nat) : K :=
  if l (j - 1) - l j < h j - h (j - 1) ∧ 0 < h j - h (j - 1) then h j - h (j - 1) else 0
/-- downward directional movement of row `j ≥ 1` -/
def dmDown (h l : Nat → K) (j : Nat) : K :=
  if h j - h (j - 1) < l (j - 1) - l j ∧ 0 < l (j - 1) - l j then l (j - 1) - l j else 0

/-- directional indicator: 100 times the share of `d` in `t` -/
def dirInd (t d : K) : K := if t = 0 then 0 else 100 * d / t
/-- +DI, `i` rows after row `w` -/
def plusDI (h l c : Nat → K) (w i : Nat) : K := dirInd (wil (trv h l c) w i) (wil (dmUp h l) w i)
/-- -DI -/
def minusDI (h l c : Nat → K) (w i : Nat) : K := dirInd (wil (trv h l c) w i) (wil (dmDown h l) w i)
/-- directional index -/
def dirIdx (h l c : Nat → K) (w i : Nat) : K :=
  if plusDI h l c w i + minusDI h l c w i = 0 then 0
  else 100 * |plusDI h l c w i - minusDI h l c w i| / (plusDI h l c w i + minusDI h l c w i)
/-- Wilder's mean: the mean of the first `w` values, then `((w-1) * a + x) / w` -/
def wilMean (x : Nat → K) (w : Nat) : Nat → K
  | 0 => (∑ j ∈ Finset.range w, x j) / w
  | i + 1 => (wilMean x w i * ((w - 1 : ℕ) : K) + x (w + i)) / w

/-! ## The three arrays -/

theorem Def.eq_cons {s : Series (Val K)} {n : Nat} {f : Nat → K} (h : Def s n 1 f) (hn : 1 ≤ n) :
    s = .nan :: (List.range' 1 (n - 1)).map (fun j => Val.fin (f j)) := by
  apply List.ext_getElem
  · simp [h.len]; omega
  · intro i h1 h2
    have hi : i < n := by rw [← h.len]; exact h1
    have e : s[i] = ix s i := by simp [ix, List.getD, h1]
    rw [e]
    rcases Nat.eq_zero_or_pos i with rfl | hp
    · rw [h.gap 0 hi (by omega)]; rfl
    · rw [h.val i hi hp]
      obtain ⟨k, rfl⟩ : ∃ k, i = k + 1 := ⟨i - 1, by omega⟩
      simp [List.getElem_range', Nat.add_comm]

theorem take_range1 {w m : Nat} (h : w ≤ m) : (List.range' 1 m).take w = List.range' 1 (w + 1 - 1) := by
  apply List.ext_getElem
  · simp; omega
  · intro i h1 h2; simp

theorem Def.wilder_zero {s : Series (Val K)} {n : Nat} {f : Nat → K} (h : Def s n 1 f) {w : Nat} (hn : w + 1 ≤ n) :
    ADX.wilderAt s w 0 = .fin (wil f w 0) := by
  unfold ADX.wilderAt sdropna
  rw [h.eq_cons (by omega)]
  have e : valid ((Val.nan : Val K) :: (List.range' 1 (n - 1)).map (fun j => Val.fin (f j)))
      = ((List.range' 1 (n - 1)).map f).map Val.fin := by
    unfold valid
    rw [List.filter_cons_of_neg (by simp), List.filter_eq_self.mpr, List.map_map]
    · rfl
    · intro v hv
      obtain ⟨j, _, rfl⟩ := List.mem_map.mp hv
      rfl
  rw [e, ← List.map_take, sumL_fin, ← List.map_take, take_range1 (by omega)]
  rfl

theorem Def.wilderAt {s : Series (Val K)} {n : Nat} {f : Nat → K} (h : Def s n 1 f) {w : Nat} (hw : 1 ≤ w) :
    ∀ i, w + i < n → ADX.wilderAt s w i = .fin (wil f w i) := by
  intro i
  induction i with
  | zero => intro hi; exact h.wilder_zero (by omega)
  | succ i ih =>
    intro hi
    unfold ADX.wilderAt
    dsimp only
    have hw' : ((w : ℕ) : K) ≠ 0 := by exact_mod_cast (by omega : w ≠ 0)
    rw [ih (by omega), h.val (w + (i + 1)) hi (by omega), natF_fin, fin_div _ _ hw', fin_sub, fin_add]
    show _ = Val.fin (_ + f (w + 1 + i))
    rw [show w + (i + 1) = w + 1 + i by omega]

theorem Def.wilder {s : Series (Val K)} {n : Nat} {f : Nat → K} (h : Def s n 1 f) {w : Nat} (hw : 1 ≤ w) {i : Nat}
    (hi : w + i < n) : ix (ADX.wilder s w) i = .fin (wil f w i) := by
  unfold ADX.wilder
  dsimp only
  rw [h.len, ix_tab_lt (by omega)]
  split_ifs with h0 h1
  · subst h0; exact h.wilderAt hw 0 hi
  · exact h.wilderAt hw i hi
  · omega

/-- the last entry is the 0 it was initialised with -/
theorem ix_wilder_last (s : Series (Val K)) {n w : Nat} (hn : s.length = n) (hw : 1 ≤ w) (h : w < n) :
    ix (ADX.wilder s w) (n - w) = .fin 0 := by
  unfold ADX.wilder
  dsimp only
  rw [hn, ix_tab_lt (by omega), if_neg (by omega), if_neg (by omega)]; simp

/-! ## The three inputs -/

theorem def_prev (n : Nat) (x : Nat → K) : Def (shift (ser n x) 1) n 1 (fun j => x (j - 1)) := by
  simpa using (def_ser n x).shift 1

theorem def_range (n : Nat) (h l c : Nat → K) : Def (ADX.range (ser n h) (ser n l) (ser n c)) n 1 (trv h l c) := by
  unfold ADX.range getMax getMin
  refine ⟨by simp [ser], fun i hi h1 => ?_, fun i hi h1 => ?_⟩
  all_goals rw [ix_ssub (by simpa [ser] using hi), ix_zip2 (by simpa [ser] using hi), ix_zip2 (by simpa [ser] using hi)]
  · rw [(def_prev n c).gap i hi h1]; simp
  · rw [(def_prev n c).val i hi h1, (def_ser n h).val i hi (Nat.zero_le _), (def_ser n l).val i hi (Nat.zero_le _),
      npMax2_fin, npMin2_fin, fin_sub]; rfl

theorem def_dm {n : Nat} {a b : Series (Val K)} {f g : Nat → K} (ha : Def a n 1 f) (hb : Def b n 1 g) :
    Def (ADX.dm a b) n 1 (fun j => if g j < f j ∧ 0 < f j then f j else 0) := by
  unfold ADX.dm
  refine ⟨by simp [ha.len], fun i hi h1 => ?_, fun i hi h1 => ?_⟩
  all_goals rw [ix_zip2 (by rw [ha.len]; exact hi)]
  · rw [ha.gap i hi h1]; simp
  · rw [ha.val i hi h1, hb.val i hi h1]
    simp only [fin_lt, lit_fin, Bool.and_eq_true, decide_eq_true_eq, Rat.cast_zero, Rat.cast_one]
    split_ifs with hc
    · rw [fin_mul, fin_abs, one_mul, abs_of_pos hc.2]
    · rw [fin_mul, fin_abs, zero_mul, abs_zero]

theorem def_moves (n : Nat) (x : Nat → K) :
    Def (ssub (ser n x) (shift (ser n x) 1)) n 1 (fun j => x j - x (j - 1)) ∧
    Def (ssub (shift (ser n x) 1) (ser n x)) n 1 (fun j => x (j - 1) - x j) := by
  constructor
  · simpa using (def_ser n x).ssub (def_prev n x)
  · simpa using (def_prev n x).ssub (def_ser n x)

theorem def_pos (n : Nat) (h l : Nat → K) : Def (ADX.pos (ser n h) (ser n l)) n 1 (dmUp h l) :=
  def_dm (def_moves n h).1 (def_moves n l).2
theorem def_neg (n : Nat) (h l : Nat → K) : Def (ADX.neg (ser n h) (ser n l)) n 1 (dmDown h l) :=
  def_dm (def_moves n l).2 (def_moves n h).1

theorem di_fin (t d : K) : ADX.di (Val.fin t) (Val.fin d) = .fin (dirInd t d) := by
  unfold ADX.di dirInd
  by_cases h : t = 0
  · subst h; simp
  · rw [if_pos (by simpa using h), if_neg h, fin_div _ _ h, lit_fin, fin_mul]
    congr 1; push_cast; ring

/-! ## C26 -/

/-- the outputs, once the constructor has succeeded, have no row to fill -/
theorem Def.fill {s : Series (Val K)} {n : Nat} {f : Nat → K} (h : Def s n 0 f) (b : Bool) (v : Fill (Val K)) :
    Def (checkFillna b v s) n 0 f := by
  cases b with
  | false => exact h
  | true =>
    refine ⟨by simpa using h.len, fun i _ h2 => by omega, fun i hi h2 => ?_⟩
    rw [checkFillna_keep (by rw [h.len]; exact hi) (num_iff.mpr ⟨_, h.val i hi h2⟩), h.val i hi h2]

theorem adx_obj {n : Nat} {h l c : Nat → K} {w : Nat} {fillna : Bool} {o : ADX (Val K)}
    (ho : ADX.new (ser n h) (ser n l) (ser n c) w fillna = .ok o) :
    1 ≤ w ∧ w ≤ n ∧ o = ADX.run (ser n h) (ser n l) (ser n c) w fillna := by
  unfold ADX.new at ho
  have hl : (ser n c).length = n := by simp [ser]
  rw [hl] at ho
  by_cases h1 : w = 0
  · rw [if_pos h1] at ho; cases ho
  rw [if_neg h1] at ho
  by_cases h2 : n < w - 1
  · rw [if_pos h2] at ho; cases ho
  rw [if_neg h2] at ho
  by_cases h3 : n = w - 1
  · rw [if_pos h3] at ho; cases ho
  rw [if_neg h3] at ho
  exact ⟨by omega, by omega, (Except.ok.inj ho).symm⟩

theorem def_place {n w : Nat} {t d : Series (Val K)} {f g : Nat → K} (ht : Def t n 1 f) (hd : Def d n 1 g) (hw : 1 ≤ w) :
    Def (ADX.place n w (ADX.wilder t w) (ADX.wilder d w)) n 0
      (fun k => if k ≤ w then 0 else dirInd (wil f w (k - w)) (wil g w (k - w))) := by
  unfold ADX.place
  refine ⟨by simp, fun i _ h2 => by omega, fun i hi _ => ?_⟩
  have hl : (ADX.wilder t w).length = n - (w - 1) := by simp [ADX.wilder, ht.len]
  rw [ix_tab_lt hi, hl]
  by_cases h1 : i ≤ w
  · rw [if_neg (by omega), if_pos h1]; simp
  · rw [if_pos (by omega), if_neg h1, ht.wilder hw (by omega), hd.wilder hw (by omega), di_fin]

/-- C26: +DI and -DI on gap-free data.  Rows up to `w` are 0; row `k > w` is 100 times the Wilder sum of the directional
movement over the Wilder sum of the true range, `k - w` rows after the seed. -/
theorem adx_di_formula {n : Nat} {h l c : Nat → K} {w : Nat} {fillna : Bool} {o : ADX (Val K)}
    (ho : ADX.new (ser n h) (ser n l) (ser n c) w fillna = .ok o) :
    Def o.adxPos n 0 (fun k => if k ≤ w then 0 else plusDI h l c w (k - w)) ∧
    Def o.adxNeg n 0 (fun k => if k ≤ w then 0 else minusDI h l c w (k - w)) := by
  obtain ⟨hw, hn, rfl⟩ := adx_obj ho
  have hl : (ser n c).length = n := by simp [ser]
  constructor
  · have := (def_place (def_range n h l c) (def_pos n h l) hw).fill fillna (.const (lit 20))
    unfold ADX.adxPos ADX.run
    dsimp only
    rw [hl]; exact this
  · have := (def_place (def_range n h l c) (def_neg n h l) hw).fill fillna (.const (lit 20))
    unfold ADX.adxNeg ADX.run
    dsimp only
    rw [hl]; exact this

theorem dx_fin (p m : K) : (if (Val.fin p +. Val.fin m) !=. lit 0
      then lit 100 *. Flt.abs ((Val.fin p -. Val.fin m) /. (Val.fin p +. Val.fin m)) else lit 0)
    = Val.fin (if p + m = 0 then 0 else 100 * |p - m| / |p + m|) := by
  rw [fin_add, fin_sub]
  by_cases h : p + m = 0
  · rw [h]; simp
  · rw [if_pos (by simpa using h), if_neg h, fin_div _ _ h, fin_abs, lit_fin, fin_mul, abs_div]
    congr 1; push_cast; ring

theorem wil_nonneg {f : Nat → K} (hf : ∀ j, 0 ≤ f j) {w : Nat} (hw : 1 ≤ w) (i : Nat) : 0 ≤ wil f w i := by
  induction i with
  | zero => exact Finset.sum_nonneg fun j _ => hf j
  | succ i ih =>
    unfold wil
    have : wil f w i / w ≤ wil f w i := div_le_self ih (by exact_mod_cast hw)
    linarith [hf (w + 1 + i)]

theorem wil_add (f g : Nat → K) (w : Nat) (i : Nat) : wil (fun j => f j + g j) w i = wil f w i + wil g w i := by
  induction i with
  | zero => exact Finset.sum_add_distrib
  | succ i ih => unfold wil; rw [ih]; ring

theorem wil_mono {f g : Nat → K} {w : Nat} (hw : 1 ≤ w) (hfg : ∀ j, 1 ≤ j → f j ≤ g j) (i : Nat) : wil f w i ≤ wil g w i := by
  induction i with
  | zero => exact Finset.sum_le_sum fun j hj => hfg j (Finset.mem_Ico.mp hj).1
  | succ i ih =>
    unfold wil
    have hw' : (1 : K) ≤ w := by exact_mod_cast hw
    have h1 : (wil g w i - wil f w i) / w ≤ wil g w i - wil f w i := div_le_self (by linarith) hw'
    rw [sub_div] at h1
    linarith [hfg (w + 1 + i) (by omega)]

theorem dmUp_nonneg (h l : Nat → K) (j : Nat) : 0 ≤ dmUp h l j := by
  unfold dmUp; split_ifs with hc <;> [exact hc.2.le; exact le_refl _]
theorem dmDown_nonneg (h l : Nat → K) (j : Nat) : 0 ≤ dmDown h l j := by
  unfold dmDown; split_ifs with hc <;> [exact hc.2.le; exact le_refl _]

/-- only one of the two movements counts, and it is not larger than the true range -/
theorem dm_le_tr {h l c : Nat → K} (hlc : ∀ i, l i ≤ c i) (hch : ∀ i, c i ≤ h i) (j : Nat) :
    dmUp h l j + dmDown h l j ≤ trv h l c j := by
  have h1 := le_max_left (h j) (c (j - 1))
  have h2 := le_max_right (h j) (c (j - 1))
  have h3 := min_le_left (l j) (c (j - 1))
  have h4 := min_le_right (l j) (c (j - 1))
  have := hlc (j - 1)
  have := hch (j - 1)
  have := hlc j
  have := hch j
  unfold dmUp dmDown trv
  split_ifs with a b b
  · linarith [a.1, b.1]
  all_goals linarith

theorem plusDI_nonneg {h l c : Nat → K} (hlc : ∀ i, l i ≤ c i) (hch : ∀ i, c i ≤ h i) {w : Nat} (hw : 1 ≤ w) (i : Nat) :
    0 ≤ plusDI h l c w i ∧ 0 ≤ minusDI h l c w i ∧ plusDI h l c w i + minusDI h l c w i ≤ 100 := by
  have p := wil_nonneg (dmUp_nonneg h l) hw i
  have m := wil_nonneg (dmDown_nonneg h l) hw i
  have s := wil_mono hw (fun j _ => dm_le_tr hlc hch j) i
  rw [wil_add] at s
  unfold plusDI minusDI dirInd
  by_cases ht : wil (trv h l c) w i = 0
  · simp [ht]
  · have htp : 0 < wil (trv h l c) w i := lt_of_le_of_ne (by linarith) (Ne.symm ht)
    rw [if_neg ht, if_neg ht]
    refine ⟨by positivity, by positivity, ?_⟩
    rw [← add_div, div_le_iff₀ htp]; linarith

theorem dirIdx_mem {h l c : Nat → K} (hlc : ∀ i, l i ≤ c i) (hch : ∀ i, c i ≤ h i) {w : Nat} (hw : 1 ≤ w) (i : Nat) :
    0 ≤ dirIdx h l c w i ∧ dirIdx h l c w i ≤ 100 := by
  obtain ⟨p, m, _⟩ := plusDI_nonneg hlc hch hw i
  unfold dirIdx
  split_ifs with h0
  · norm_num
  · have hp : 0 < plusDI h l c w i + minusDI h l c w i := lt_of_le_of_ne (by linarith) (Ne.symm h0)
    refine ⟨by positivity, ?_⟩
    rw [div_le_iff₀ hp]
    have : |plusDI h l c w i - minusDI h l c w i| ≤ plusDI h l c w i + minusDI h l c w i := by
      rw [abs_le]; constructor <;> linarith
    linarith

theorem ix_dx {n : Nat} {h l c : Nat → K} (hlc : ∀ i, l i ≤ c i) (hch : ∀ i, c i ≤ h i) {w : Nat} (hw : 1 ≤ w)
    {fillna : Bool} {i : Nat} (hi : w + i < n) :
    ix (ADX.dx (ADX.run (ser n h) (ser n l) (ser n c) w fillna)) i = .fin (dirIdx h l c w i) := by
  have hl : (ADX.wilder (ADX.range (ser n h) (ser n l) (ser n c)) w).length = n - (w - 1) := by
    simp [ADX.wilder, (def_range n h l c).len]
  unfold ADX.dx ADX.run
  dsimp only
  rw [ix_tab_lt (by rw [hl]; omega), (def_range n h l c).wilder hw hi, (def_pos n h l).wilder hw hi,
    (def_neg n h l).wilder hw hi, di_fin, di_fin, dx_fin]
  obtain ⟨p, m, _⟩ := plusDI_nonneg hlc hch hw i
  unfold dirIdx
  show Val.fin (if plusDI h l c w i + minusDI h l c w i = 0 then 0 else
    100 * |plusDI h l c w i - minusDI h l c w i| / |plusDI h l c w i + minusDI h l c w i|) = _
  rw [abs_of_nonneg (by linarith : 0 ≤ plusDI h l c w i + minusDI h l c w i)]

/-- C26: ADX on gap-free good bars: 0 before row `2 * w - 1`, then Wilder's mean of the directional index. -/
theorem adx_formula {n : Nat} {h l c : Nat → K} (hlc : ∀ i, l i ≤ c i) (hch : ∀ i, c i ≤ h i) {w : Nat} {fillna : Bool}
    {o : ADX (Val K)} (ho : ADX.new (ser n h) (ser n l) (ser n c) w fillna = .ok o) {out : Series (Val K)}
    (ha : o.adx = .ok out) :
    2 * w ≤ n ∧ Def out n 0 (fun k => if k < 2 * w - 1 then 0 else wilMean (dirIdx h l c w) w (k - (2 * w - 1))) := by
  obtain ⟨hw, hn, rfl⟩ := adx_obj ho
  have hl : (ADX.run (ser n h) (ser n l) (ser n c) w fillna).trs.length = n - (w - 1) := by
    simp [ADX.run, ADX.wilder, (def_range n h l c).len]
  have hdxl : (ADX.dx (ADX.run (ser n h) (ser n l) (ser n c) w fillna)).length = n - (w - 1) := by
    unfold ADX.dx; rw [length_tab, hl]
  unfold ADX.adx at ha
  rw [hl] at ha
  by_cases h1 : n - (w - 1) ≤ w
  · rw [show (ADX.run (ser n h) (ser n l) (ser n c) w fillna).window = w from rfl, if_pos h1] at ha; cases ha
  rw [show (ADX.run (ser n h) (ser n l) (ser n c) w fillna).window = w from rfl, if_neg h1] at ha
  have ha' := Except.ok.inj ha
  rw [show (ADX.run (ser n h) (ser n l) (ser n c) w fillna).fillna = fillna from rfl] at ha'
  have hdx := fun (i : Nat) (hi : w + i < n) => ix_dx (n := n) hlc hch hw (fillna := fillna) hi
  generalize ADX.dx (ADX.run (ser n h) (ser n l) (ser n c) w fillna) = dx at ha' hdx hdxl
  refine ⟨by omega, ?_⟩
  rw [← ha']
  refine Def.fill ?_ _ _
  have hw' : ((w : ℕ) : K) ≠ 0 := by exact_mod_cast (by omega : w ≠ 0)
  have hrec : ∀ i, 2 * w - 1 + i < n → ADX.adxAt dx w (w + i) = .fin (wilMean (dirIdx h l c w) w i) := by
    intro i
    induction i with
    | zero =>
      intro hi
      obtain ⟨v, rfl⟩ : ∃ v, w = v + 1 := ⟨w - 1, by omega⟩
      show ADX.adxAt dx (v + 1) (v + 1) = _
      unfold ADX.adxAt npMean
      rw [if_neg (by omega), if_pos rfl]
      have e : dx.take (v + 1) = ((List.range (v + 1)).map (dirIdx h l c (v + 1))).map Val.fin := by
        apply List.ext_getElem
        · simp [hdxl]; omega
        · intro j j1 j2
          have hj : j < v + 1 := by simpa using j2
          have e1 : (dx.take (v + 1))[j] = ix dx j := by
            have j3 : j < dx.length := by rw [hdxl]; omega
            simp [ix, List.getD, j3]
          rw [e1, hdx j (by omega)]; simp
      rw [e, sumL_fin, natF_fin, fin_div]
      · simp only [List.length_map, List.length_range]; rfl
      · simp only [List.length_map, List.length_range]; exact hw'
    | succ i ih =>
      intro hi
      show ADX.adxAt dx w ((w + i) + 1) = _
      unfold ADX.adxAt
      rw [if_neg (by omega), if_neg (by omega), ih (by omega), hdx (w + i) (by omega), natF_fin, natF_fin, fin_mul, fin_add,
        fin_div _ _ hw']
      rfl
  have hzero : ∀ i, i < w → ADX.adxAt dx w i = .fin 0 := by
    intro i hi
    cases i with
    | zero => simp [ADX.adxAt]
    | succ i => unfold ADX.adxAt; rw [if_pos hi]; simp
  refine ⟨by rw [List.length_append, List.length_replicate, length_tab]; omega, fun i _ h2 => by omega, fun i hi _ => ?_⟩
  by_cases hk : i < w - 1
  · rw [if_pos (by omega)]
    unfold ix
    rw [List.getD_eq_getElem?_getD, List.getElem?_append_left (by simpa using hk)]
    simp [hk]
  · have e : ix (List.replicate (w - 1) (lit 0 : Val K) ++ tab (n - (w - 1)) (ADX.adxAt dx w)) i
        = ADX.adxAt dx w (i - (w - 1)) := by
      rw [← ix_tab_lt (f := ADX.adxAt dx w) (n := n - (w - 1)) (by omega : i - (w - 1) < _)]
      unfold ix
      rw [List.getD_eq_getElem?_getD, List.getD_eq_getElem?_getD, List.getElem?_append_right (by simp; omega)]
      simp
    rw [e]
    by_cases hk2 : i < 2 * w - 1
    · rw [if_pos hk2, hzero _ (by omega)]
    · rw [if_neg hk2, show i - (w - 1) = w + (i - (2 * w - 1)) by omega, hrec _ (by omega)]

/-! ## C25 -/

/-- C25: +DI and -DI of gap-free good bars are numbers in [0, 100] on every row and add up to at most 100. -/
theorem adx_di_range {n : Nat} {h l c : Nat → K} (hlc : ∀ i, l i ≤ c i) (hch : ∀ i, c i ≤ h i) {w : Nat} {fillna : Bool}
    {o : ADX (Val K)} (ho : ADX.new (ser n h) (ser n l) (ser n c) w fillna = .ok o) {k : Nat} (hk : k < n) :
    ∃ p m, ix o.adxPos k = .fin p ∧ ix o.adxNeg k = .fin m ∧ 0 ≤ p ∧ 0 ≤ m ∧ p + m ≤ 100 := by
  obtain ⟨h1, h2⟩ := adx_di_formula ho
  refine ⟨_, _, h1.val k hk (Nat.zero_le _), h2.val k hk (Nat.zero_le _), ?_⟩
  obtain ⟨p, m, s⟩ := plusDI_nonneg hlc hch (adx_obj ho).1 (k - w)
  split_ifs
  · norm_num
  · exact ⟨p, m, s⟩

/-- C25: and so is ADX. -/
theorem adx_range {n : Nat} {h l c : Nat → K} (hlc : ∀ i, l i ≤ c i) (hch : ∀ i, c i ≤ h i) {w : Nat} {fillna : Bool}
    {o : ADX (Val K)} (ho : ADX.new (ser n h) (ser n l) (ser n c) w fillna = .ok o) {out : Series (Val K)}
    (ha : o.adx = .ok out) : ∀ i, i < n → ∃ x, ix out i = .fin x ∧ 0 ≤ x ∧ x ≤ 100 := by
  obtain ⟨_, hd⟩ := adx_formula hlc hch ho ha
  have hw := (adx_obj ho).1
  have hm : ∀ i, 0 ≤ wilMean (dirIdx h l c w) w i ∧ wilMean (dirIdx h l c w) w i ≤ 100 := by
    intro i
    have hp : (0 : K) < w := by exact_mod_cast hw
    induction i with
    | zero =>
      unfold wilMean
      refine ⟨div_nonneg (Finset.sum_nonneg fun j _ => (dirIdx_mem hlc hch hw j).1) hp.le, ?_⟩
      rw [div_le_iff₀ hp]
      refine (Finset.sum_le_card_nsmul _ _ 100 fun j _ => (dirIdx_mem hlc hch hw j).2).trans ?_
      rw [Finset.card_range, nsmul_eq_mul, mul_comm]
    | succ i ih =>
      unfold wilMean
      have d := dirIdx_mem hlc hch hw (w + i)
      have e : ((w - 1 : ℕ) : K) = w - 1 := by rw [Nat.cast_sub hw]; simp
      have hw1 : (0 : K) ≤ ((w - 1 : ℕ) : K) := Nat.cast_nonneg _
      refine ⟨div_nonneg (add_nonneg (mul_nonneg ih.1 hw1) d.1) hp.le, ?_⟩
      rw [div_le_iff₀ hp]
      have := mul_le_mul_of_nonneg_right ih.2 hw1
      rw [e] at this ⊢
      linarith [d.2]
  intro i hi
  refine ⟨_, hd.val i hi (Nat.zero_le _), ?_⟩
  split_ifs
  · norm_num
  · exact hm _

example : (ADX.new (qs [10, 12, 13, 12, 15]) (qs [8, 9, 11, 9, 12]) (qs [9, 11, 12, 10, 14]) 2).toOption.map
    (fun o => (o.adxPos, o.adxNeg, o.adx)) = some (
      [.fin 0, .fin 0, .fin 0, .fin (300/11), .fin (1500/31)],
      [.fin 0, .fin 0, .fin 0, .fin (400/11), .fin (400/31)],
      .ok [.fin 0, .fin 0, .fin 0, .fin (400/7), .fin (7650/133)]) := by decide +kernel
/-- without `close <= high` +DI can exceed 100 -/
example : (ADX.new (qs [10, 10, 15]) (qs [9, 9, 14]) (qs [15, 15, 15]) 1).toOption.map (fun o => o.adxPos)
    = some [.fin 0, .fin 0, .fin 500] := by decide +kernel

end TA
