import Verif.Props.C25
import Verif.Props.C20
import Verif.Model.Trend
import Verif.Model.Volatility

/-! # C27: Aroon; C28: average true range -/

set_option linter.unusedSectionVars false

namespace TA
open Finset
variable {K : Type} [Field K] [LinearOrder K] [IsStrictOrderedRing K]

/-! ## argmax and argmin -/

theorem findFrom_some {F : Type} {p : F → Bool} {l : List F} {k m : Nat} (h : findFrom p k l = some m) :
    ∃ j x, m = k + j ∧ l[j]? = some x ∧ p x = true ∧ ∀ i y, i < j → l[i]? = some y → p y = false := by
  induction l generalizing k with
  | nil => cases h
  | cons a l ih =>
    unfold findFrom at h
    by_cases hp : p a = true
    · rw [if_pos hp] at h
      cases h
      exact ⟨0, a, rfl, rfl, hp, fun i _ hi => by omega⟩
    · rw [if_neg hp] at h
      obtain ⟨j, x, e, h1, h2, h3⟩ := ih h
      refine ⟨j + 1, x, by omega, by simpa using h1, h2, fun i y hi hy => ?_⟩
      cases i with
      | zero => simp at hy; subst hy; simpa using hp
      | succ i => exact h3 i y (by omega) (by simpa using hy)

theorem findFrom_none {F : Type} {p : F → Bool} {l : List F} {k : Nat} (h : findFrom p k l = none) :
    ∀ x ∈ l, p x = false := by
  induction l generalizing k with
  | nil => intro x hx; cases hx
  | cons a l ih =>
    unfold findFrom at h
    by_cases hp : p a = true
    · rw [if_pos hp] at h; cases h
    · rw [if_neg hp] at h
      intro x hx
      rcases List.mem_cons.mp hx with rfl | hx
      · simpa using hp
      · exact ih h x hx

theorem argmax_lt {F : Type} [Flt F] (l : List F) : argmax l < max 1 l.length ∧ argmin l < max 1 l.length := by
  unfold argmax argmin
  constructor
  all_goals
    split
    · rename_i k hk
      obtain ⟨j, x, e, h1, _⟩ := findFrom_some hk
      have := (List.getElem?_eq_some_iff.mp h1).1
      omega
    · cases hm : findFrom _ 0 l with
      | none => simp
      | some k =>
        obtain ⟨j, x, e, h1, _⟩ := findFrom_some hm
        have := (List.getElem?_eq_some_iff.mp h1).1
        simp only [Option.getD_some]
        omega

theorem argmax_fin (l : List K) (hl : l ≠ []) :
    ∃ x, l[argmax (l.map Val.fin)]? = some x ∧ (∀ y ∈ l, y ≤ x) ∧
      ∀ j y, j < argmax (l.map Val.fin) → l[j]? = some y → y < x := by
  cases l with
  | nil => exact absurd rfl hl
  | cons a l =>
    unfold argmax
    have hn : findFrom Flt.isNaN 0 ((a :: l).map Val.fin) = none := by
      cases e : findFrom Flt.isNaN 0 ((a :: l).map Val.fin) with
      | none => rfl
      | some k =>
        obtain ⟨j, x, _, h1, h2, _⟩ := findFrom_some e
        obtain ⟨y, _, rfl⟩ := List.mem_map.mp (List.mem_of_getElem? h1)
        cases h2
    rw [hn]
    dsimp only
    rw [maxL_fin]
    cases e : findFrom (fun x => Val.fin (lmax a l) ==. x) 0 ((a :: l).map Val.fin) with
    | none =>
      have := findFrom_none e (.fin (lmax a l)) (List.mem_map_of_mem (lmax_mem a l))
      simp at this
    | some k =>
      obtain ⟨j, x, e1, h1, h2, h3⟩ := findFrom_some e
      rw [zero_add] at e1
      subst e1
      simp only [Option.getD_some]
      rw [List.getElem?_map] at h1
      obtain ⟨y, hy, rfl⟩ := Option.map_eq_some_iff.mp h1
      have hyx : lmax a l = y := by simpa using h2
      refine ⟨y, hy, fun z hz => hyx ▸ mem_le_lmax hz, fun i z hi hz => ?_⟩
      have := h3 i (.fin z) hi (by rw [List.getElem?_map, hz]; rfl)
      refine lt_of_le_of_ne (hyx ▸ mem_le_lmax (List.mem_of_getElem? hz)) fun hzy => ?_
      rw [hzy, hyx] at this
      simp at this

theorem argmin_fin (l : List K) (hl : l ≠ []) :
    ∃ x, l[argmin (l.map Val.fin)]? = some x ∧ (∀ y ∈ l, x ≤ y) ∧
      ∀ j y, j < argmin (l.map Val.fin) → l[j]? = some y → x < y := by
  cases l with
  | nil => exact absurd rfl hl
  | cons a l =>
    unfold argmin
    have hn : findFrom Flt.isNaN 0 ((a :: l).map Val.fin) = none := by
      cases e : findFrom Flt.isNaN 0 ((a :: l).map Val.fin) with
      | none => rfl
      | some k =>
        obtain ⟨j, x, _, h1, h2, _⟩ := findFrom_some e
        obtain ⟨y, _, rfl⟩ := List.mem_map.mp (List.mem_of_getElem? h1)
        cases h2
    rw [hn]
    dsimp only
    rw [minL_fin]
    cases e : findFrom (fun x => Val.fin (lmin a l) ==. x) 0 ((a :: l).map Val.fin) with
    | none =>
      have := findFrom_none e (.fin (lmin a l)) (List.mem_map_of_mem (lmin_mem a l))
      simp at this
    | some k =>
      obtain ⟨j, x, e1, h1, h2, h3⟩ := findFrom_some e
      rw [zero_add] at e1
      subst e1
      simp only [Option.getD_some]
      rw [List.getElem?_map] at h1
      obtain ⟨y, hy, rfl⟩ := Option.map_eq_some_iff.mp h1
      have hyx : lmin a l = y := by simpa using h2
      refine ⟨y, hy, fun z hz => hyx ▸ lmin_le_mem hz, fun i z hi hz => ?_⟩
      have := h3 i (.fin z) hi (by rw [List.getElem?_map, hz]; rfl)
      refine lt_of_le_of_ne (hyx ▸ lmin_le_mem (List.mem_of_getElem? hz)) fun hzy => ?_
      rw [← hzy, hyx] at this
      simp at this

/-! ## C27 -/

theorem aroon_obj {F : Type} [Flt F] {h l : Series F} {w : Nat} {fillna : Bool} {o : Aroon F}
    (ho : Aroon.new h l w fillna = .ok o) :
    o = Aroon.run h l w fillna ∧ (w = 0 → valid (replaceInf h) = [] ∧ valid (replaceInf l) = []) := by
  unfold Aroon.new at ho
  split_ifs at ho with hc
  refine ⟨(Except.ok.inj ho).symm, fun hw => ?_⟩
  rw [not_and, not_lt] at hc
  have := hc hw
  constructor <;> exact List.eq_nil_of_length_eq_zero (by omega)

theorem aroon_scalar {k w : Nat} (hw : 1 ≤ w) :
    (natF k /. natF w *. lit 100 : Val K) = .fin (100 * k / w) := by
  have hw' : ((w : ℕ) : K) ≠ 0 := by exact_mod_cast (by omega : w ≠ 0)
  rw [natF_fin, natF_fin, fin_div _ _ hw', lit_fin, fin_mul]
  congr 1; push_cast; ring

/-- the value shown by an Aroon line over any data -/
theorem aroon_line_range (g : List (Val K) → Nat) (hg : ∀ l, g l < max 1 l.length) (s : Series (Val K)) (w mp : Nat)
    (h1 : 1 ≤ mp) (hw : w = 0 → valid (replaceInf s) = []) :
    NaNOr (fun x => 0 ≤ x ∧ x ≤ 100)
      (rollApply (fun x => natF (g x) /. natF w *. lit 100) (w + 1) mp s) := by
  intro i hi
  have hi' : i < s.length := by simpa using hi
  rw [ix_rollApply hi']
  split_ifs with hm
  · right
    have hw1 : 1 ≤ w := by
      by_contra h0
      have hw0 : w = 0 := by omega
      have hob : 0 < (obs s (w + 1) i).length := by omega
      obtain ⟨x, hx⟩ := List.exists_mem_of_length_pos hob
      obtain ⟨j, hj, hj', e⟩ := mem_obs.mp hx
      have hv := hw hw0
      have hmem : Val.fin x ∈ valid (replaceInf s) := by
        unfold valid
        rw [List.mem_filter]
        refine ⟨?_, rfl⟩
        unfold replaceInf
        rw [List.mem_map]
        refine ⟨.fin x, ?_, rfl⟩
        rw [← e]
        have : j < s.length := by omega
        simp [ix, List.getD, this]
      rw [hv] at hmem; cases hmem
    rw [aroon_scalar hw1]
    refine ⟨_, rfl, by positivity, ?_⟩
    have hlen := hg ((winIx (w + 1) i).map fun j => clean (ix s j))
    rw [List.length_map, length_winIx] at hlen
    have hk : g ((winIx (w + 1) i).map fun j => clean (ix s j)) ≤ w := by omega
    have hp : (0 : K) < w := by exact_mod_cast hw1
    rw [div_le_iff₀ hp]
    have : ((g ((winIx (w + 1) i).map fun j => clean (ix s j)) : ℕ) : K) ≤ w := by exact_mod_cast hk
    linarith
  · exact .inl rfl

/-- C27: for any data, the Aroon lines are NaN or in [0, 100], their difference NaN or in [-100, 100]. -/
theorem aroon_range {h l : Series (Val K)} {w : Nat} {fillna : Bool} {o : Aroon (Val K)}
    (ho : Aroon.new h l w fillna = .ok o) :
    NaNOr (fun x => 0 ≤ x ∧ x ≤ 100) o.aroonUp ∧ NaNOr (fun x => 0 ≤ x ∧ x ≤ 100) o.aroonDown ∧
    NaNOr (fun x => -100 ≤ x ∧ x ≤ 100) o.aroonIndicator := by
  obtain ⟨rfl, hw⟩ := aroon_obj ho
  have hu : NaNOr (fun x => 0 ≤ x ∧ x ≤ 100) (Aroon.run h l w fillna).up :=
    aroon_line_range argmax (fun l => (argmax_lt l).1) h w _ (by split_ifs <;> omega) fun h0 => (hw h0).1
  have hd : NaNOr (fun x => 0 ≤ x ∧ x ≤ 100) (Aroon.run h l w fillna).down :=
    aroon_line_range argmin (fun l => (argmax_lt l).2) l w _ (by split_ifs <;> omega) fun h0 => (hw h0).2
  unfold Aroon.aroonUp Aroon.aroonDown Aroon.aroonIndicator
  rw [lit_fin]
  refine ⟨hu.fill (by norm_num) _, hd.fill (by norm_num) _, NaNOr.fill ?_ (by norm_num) _⟩
  intro i hi
  have hi' : i < (Aroon.run h l w fillna).up.length := by simpa using hi
  rw [ix_ssub hi']
  rcases hu i hi' with e1 | ⟨x, e1, x0, x1⟩
  · left; rw [e1]; simp
  · by_cases hj : i < (Aroon.run h l w fillna).down.length
    · rcases hd i hj with e2 | ⟨y, e2, y0, y1⟩
      · left; rw [e2]; simp
      · right; rw [e1, e2, fin_sub]; exact ⟨_, rfl, by linarith, by linarith⟩
    · left; rw [ix_ge (s := (Aroon.run h l w fillna).down) (by omega)]; simp

/-- `k` is the place, counted from the oldest row `i - w` of the window, of the oldest maximum of `x` in the window -/
def IsOldestMax (x : Nat → K) (w i k : Nat) : Prop :=
  i - w + k ≤ i ∧ (∀ j, i - w ≤ j → j ≤ i → x j ≤ x (i - w + k)) ∧ ∀ j, i - w ≤ j → j < i - w + k → x j < x (i - w + k)

theorem win_getElem? (f : Nat → K) (w i j : Nat) :
    ((winIx (w + 1) i).map f)[j]? = if j < min (w + 1) (i + 1) then some (f (i - w + j)) else none := by
  by_cases h : j < min (w + 1) (i + 1)
  · rw [if_pos h]
    have : (winIx (w + 1) i)[j]? = some (i - w + j) := by
      unfold winIx
      rw [List.getElem?_range' (by omega)]
      congr 1; omega
    simp [this]
  · rw [if_neg h]
    have : (winIx (w + 1) i).length ≤ j := by rw [length_winIx]; omega
    simp [this]

/-- C27: the formula on gap-free data.  Rows `i ≥ w` (all rows, with the window cut at row 0, for `fillna=True`) show
`100 * k / w` where `k` is the place of the oldest maximum (minimum) among the last `w + 1` rows, i.e.
`100 * (w - age) / w` once the window is full. -/
theorem aroon_formula {n : Nat} {h l : Nat → K} {w : Nat} {fillna : Bool} {o : Aroon (Val K)} (hw : 1 ≤ w)
    (ho : Aroon.new (ser n h) (ser n l) w fillna = .ok o) :
    ∃ ku kd : Nat → Nat, (∀ i, IsOldestMax h w i (ku i)) ∧ (∀ i, IsOldestMax (fun j => -l j) w i (kd i)) ∧
      Def o.aroonUp n (if fillna then 0 else w) (fun i => 100 * ku i / w) ∧
      Def o.aroonDown n (if fillna then 0 else w) (fun i => 100 * kd i / w) ∧
      Def o.aroonIndicator n (if fillna then 0 else w) (fun i => 100 * ku i / w - 100 * kd i / w) := by
  obtain ⟨rfl, -⟩ := aroon_obj ho
  have hne : ∀ (f : Nat → K) i, (winIx (w + 1) i).map f ≠ [] := by
    intro f i he
    have := congrArg List.length he
    rw [List.length_map, length_winIx] at this
    simp at this
  refine ⟨fun i => argmax (((winIx (w + 1) i).map h).map Val.fin), fun i => argmin (((winIx (w + 1) i).map l).map Val.fin),
    fun i => ?_, fun i => ?_, ?_⟩
  · dsimp only
    obtain ⟨x, h1, h2, h3⟩ := argmax_fin _ (hne h i)
    generalize argmax (((winIx (w + 1) i).map h).map Val.fin) = k at h1 h3 ⊢
    rw [win_getElem?] at h1
    split_ifs at h1 with hk
    cases h1
    refine ⟨by omega, fun j j1 j2 => h2 _ (List.mem_map_of_mem (mem_winIx.mpr ⟨j2, by omega⟩)), fun j j1 j2 => ?_⟩
    refine h3 (j - (i - w)) (h j) (by omega) ?_
    rw [win_getElem?, if_pos (by omega)]
    congr 2; omega
  · dsimp only
    obtain ⟨x, h1, h2, h3⟩ := argmin_fin _ (hne l i)
    generalize argmin (((winIx (w + 1) i).map l).map Val.fin) = k at h1 h3 ⊢
    rw [win_getElem?] at h1
    split_ifs at h1 with hk
    cases h1
    refine ⟨by omega, fun j j1 j2 => neg_le_neg (h2 _ (List.mem_map_of_mem (mem_winIx.mpr ⟨j2, by omega⟩))),
      fun j j1 j2 => neg_lt_neg ?_⟩
    refine h3 (j - (i - w)) (l j) (by omega) ?_
    rw [win_getElem?, if_pos (by omega)]
    congr 2; omega
  · have key : ∀ (g : List (Val K) → Nat) (f : Nat → K),
        Def (rollApply (fun x => natF (g x) /. natF w *. lit 100) (w + 1) (if fillna then 1 else w + 1) (ser n f)) n
          (if fillna then 0 else w) (fun i => 100 * (g (((winIx (w + 1) i).map f).map Val.fin) : ℕ) / w) := by
      intro g f
      have hlen : (ser n f).length = n := by simp [ser]
      have hob : ∀ i, i < n → (obs (ser n f) (w + 1) i).length = min (w + 1) (i + 1) := by
        intro i hi
        rw [(def_ser n f).obs_eq hi, List.length_map, length_winIx]; omega
      refine ⟨by simp [hlen], fun i hi h1 => ?_, fun i hi h1 => ?_⟩
      · rw [ix_rollApply (by rw [hlen]; exact hi), hob i hi, if_neg]
        split_ifs at h1 ⊢ <;> omega
      · rw [ix_rollApply (by rw [hlen]; exact hi), hob i hi, if_pos, aroon_scalar hw]
        · congr 5
          rw [List.map_map]
          refine List.map_congr_left fun j hj => ?_
          have := mem_winIx.mp hj
          rw [(def_ser n f).val j (by omega) (Nat.zero_le _)]; rfl
        · split_ifs at h1 ⊢ <;> omega
    have hu := key argmax h
    have hd := key argmin l
    have hs := hu.ssub hd
    rw [Nat.max_self] at hs
    unfold Aroon.aroonUp Aroon.aroonDown Aroon.aroonIndicator
    cases fillna with
    | false => exact ⟨hu, hd, hs⟩
    | true => exact ⟨Def.fill hu _ _, Def.fill hd _ _, Def.fill hs _ _⟩

/-- C27: Aroon up is 100 exactly when the newest high is the strict maximum of the last `w + 1` highs. -/
theorem aroon_up_100 {n : Nat} {h l : Nat → K} {w : Nat} {fillna : Bool} {o : Aroon (Val K)} (hw : 1 ≤ w)
    (ho : Aroon.new (ser n h) (ser n l) w fillna = .ok o) {i : Nat} (hi : i < n) (hwi : w ≤ i) :
    ix o.aroonUp i = .fin 100 ↔ ∀ j, i - w ≤ j → j < i → h j < h i := by
  obtain ⟨ku, kd, hu, _, hd, _⟩ := aroon_formula hw ho
  rw [hd.val i hi (by split_ifs <;> omega)]
  obtain ⟨h1, h2, h3⟩ := hu i
  have hp : (0 : K) < w := by exact_mod_cast hw
  have e : (Val.fin (100 * (ku i : K) / w) = Val.fin 100) ↔ ku i = w := by
    constructor
    · intro he
      have := Val.fin.inj he
      rw [div_eq_iff hp.ne'] at this
      have h4 : (ku i : K) = w := by linarith
      exact_mod_cast h4
    · intro he; rw [he, mul_div_assoc, div_self hp.ne', mul_one]
  rw [e]
  constructor
  · intro hk j j1 j2
    rw [hk, Nat.sub_add_cancel hwi] at h3
    exact h3 j j1 j2
  · intro hs
    by_contra hne
    have hlt : i - w + ku i < i := by omega
    have := hs _ (by omega) hlt
    have := h2 i (by omega) (le_refl _)
    linarith

example : (Aroon.new (qs [3, 5, 4, 5, 2]) (qs [1, 2, 0, 1, 0]) 2).toOption.map (fun o => (o.aroonUp, o.aroonDown, o.aroonIndicator))
    = some ([.nan, .nan, .fin 50, .fin 0, .fin 50], [.nan, .nan, .fin 100, .fin 50, .fin 0],
      [.nan, .nan, .fin (-50), .fin (-50), .fin 50]) := by decide +kernel

/-! ## C28 -/

/-- true range with its first row -/
def tr0 (h l c : Nat → K) (i : Nat) : K := if i = 0 then h 0 - l 0 else max (h i) (c (i - 1)) - min (l i) (c (i - 1))

theorem take_def {s : Series (Val K)} {n : Nat} {f : Nat → K} (h : Def s n 0 f) {w : Nat} (hw : w ≤ n) :
    s.take w = ((List.range w).map f).map Val.fin := by
  apply List.ext_getElem
  · simp [h.len, hw]
  · intro i h1 h2
    have hi : i < w := by simpa using h2
    have h3 : i < s.length := by rw [h.len]; omega
    have e : (s.take w)[i] = ix s i := by simp [ix, List.getD, h3]
    rw [e, h.val i (by omega) (Nat.zero_le _)]; simp

theorem smean_fin (l : List K) (hl : l ≠ []) : smean (l.map Val.fin) = .fin (l.sum / l.length) := by
  have e : valid (l.map Val.fin) = l.map Val.fin := by
    unfold valid
    rw [List.filter_eq_self]
    intro v hv
    obtain ⟨x, _, rfl⟩ := List.mem_map.mp hv
    rfl
  have hne : l.length ≠ 0 := fun h => hl (List.eq_nil_of_length_eq_zero h)
  unfold smean
  rw [e, List.length_map, if_neg hne, sumL_fin, natF_fin, fin_div _ _ (by exact_mod_cast hne)]

/-- C28: ATR on gap-free bars.  Rows before `w - 1` are 0, row `w - 1` is the mean of the first `w` true ranges, then
`((w - 1) * previous + true range) / w`; there is nothing to fill. -/
theorem atr_formula {n : Nat} {h l c : Nat → K} (hlh : ∀ i, i < n → l i ≤ h i) {w : Nat} (hw : 1 ≤ w) {fillna : Bool}
    {out : Series (Val K)} (ho : averageTrueRange (ser n h) (ser n l) (ser n c) w fillna = .ok out) :
    w ≤ n ∧ Def out n 0 (fun i => if i < w - 1 then 0 else wilMean (tr0 h l c) w (i - (w - 1))) := by
  have hl : (ser n c).length = n := by simp [ser]
  unfold averageTrueRange at ho
  rw [hl, max_eq_left hw] at ho
  by_cases h1 : n < w
  · rw [if_pos h1] at ho; cases ho
  rw [if_neg h1] at ho
  rw [← Except.ok.inj ho]
  refine ⟨by omega, Def.fill ?_ _ _⟩
  have htr : Def (trueRange (ser n h) (ser n l) (shift (ser n c) 1)) n 0 (tr0 h l c) := true_range_formula n h l c hlh
  have hw' : ((w : ℕ) : K) ≠ 0 := by exact_mod_cast (by omega : w ≠ 0)
  unfold ATR.run
  dsimp only
  rw [if_neg (by omega), hl]
  generalize trueRange (ser n h) (ser n l) (shift (ser n c) 1) = tr at htr
  have hseed : iter (ATR.step tr w) (lit 0) w = .fin (wilMean (tr0 h l c) w 0) := by
    obtain ⟨v, rfl⟩ : ∃ v, w = v + 1 := ⟨w - 1, by omega⟩
    show ATR.step tr (v + 1) v _ = _
    unfold ATR.step
    rw [if_neg (by omega), if_pos rfl, take_def htr (by omega), smean_fin _ (by simp)]
    rw [List.length_map, List.length_range]; rfl
  have hrec : ∀ i, w - 1 + i < n → iter (ATR.step tr w) (lit 0) (w + i) = .fin (wilMean (tr0 h l c) w i) := by
    intro i
    induction i with
    | zero => intro _; exact hseed
    | succ i ih =>
      intro hi
      show ATR.step tr w (w + i) (iter (ATR.step tr w) (lit 0) (w + i)) = _
      rw [ih (by omega)]
      unfold ATR.step
      rw [if_neg (by omega), if_neg (by omega), htr.val (w + i) (by omega) (Nat.zero_le _), natF_fin, natF_fin, fin_mul,
        fin_add, fin_div _ _ hw']
      rfl
  refine ⟨by simp, fun i _ h2 => by omega, fun i hi _ => ?_⟩
  rw [ix_tab_lt hi]
  by_cases hk : i < w - 1
  · rw [if_pos hk]
    show ATR.step tr w i _ = _
    unfold ATR.step
    rw [if_pos (by omega)]; simp
  · rw [if_neg hk, show i + 1 = w + (i - (w - 1)) by omega, hrec _ (by omega)]

/-- Wilder's mean stays between any bounds of the values it has read. -/
theorem wilMean_mem {x : Nat → K} {w : Nat} (hw : 1 ≤ w) {lo hi : K} (i : Nat)
    (h : ∀ j, j < w + i → lo ≤ x j ∧ x j ≤ hi) : lo ≤ wilMean x w i ∧ wilMean x w i ≤ hi := by
  have hp : (0 : K) < w := by exact_mod_cast hw
  induction i with
  | zero =>
    unfold wilMean
    rw [le_div_iff₀ hp, div_le_iff₀ hp]
    constructor
    · have := Finset.card_nsmul_le_sum (Finset.range w) x lo fun j hj => (h j (by simpa using hj)).1
      rwa [Finset.card_range, nsmul_eq_mul, mul_comm] at this
    · have := Finset.sum_le_card_nsmul (Finset.range w) x hi fun j hj => (h j (by simpa using hj)).2
      rwa [Finset.card_range, nsmul_eq_mul, mul_comm] at this
  | succ i ih =>
    have ih := ih fun j hj => h j (by omega)
    have hx := h (w + i) (by omega)
    unfold wilMean
    have e : ((w - 1 : ℕ) : K) = w - 1 := by rw [Nat.cast_sub hw]; simp
    have hw1 : (0 : K) ≤ ((w - 1 : ℕ) : K) := Nat.cast_nonneg _
    have a := mul_le_mul_of_nonneg_right ih.1 hw1
    have b := mul_le_mul_of_nonneg_right ih.2 hw1
    rw [e] at a b ⊢
    rw [le_div_iff₀ hp, div_le_iff₀ hp]
    constructor <;> nlinarith [hx.1, hx.2]

/-- C28: from row `w - 1` on, ATR lies between any bounds of the true ranges seen so far; in particular it is at least 0
and at most the largest true range. -/
theorem atr_mem {n : Nat} {h l c : Nat → K} (hlh : ∀ i, i < n → l i ≤ h i) {w : Nat} (hw : 1 ≤ w) {fillna : Bool}
    {out : Series (Val K)} (ho : averageTrueRange (ser n h) (ser n l) (ser n c) w fillna = .ok out)
    {i : Nat} (hi : i < n) (hwi : w - 1 ≤ i) {lo up : K} (hb : ∀ j, j ≤ i → lo ≤ tr0 h l c j ∧ tr0 h l c j ≤ up) :
    ∃ x, ix out i = .fin x ∧ lo ≤ x ∧ x ≤ up := by
  refine ⟨_, (atr_formula hlh hw ho).2.val i hi (Nat.zero_le _), ?_⟩
  rw [if_neg (by omega)]
  exact wilMean_mem hw _ fun j hj => hb j (by omega)

/-- C28: ATR is never negative, also with missing bars (then NaN is possible). -/
theorem atr_nonneg {h l c : Series (Val K)} (g : GoodBars h l c) {w : Nat} {fillna : Bool} {out : Series (Val K)}
    (ho : averageTrueRange h l c w fillna = .ok out) : NaNOr (fun x => 0 ≤ x) out := by
  unfold averageTrueRange at ho
  split_ifs at ho
  rw [← Except.ok.inj ho, lit_fin]
  refine NaNOr.fill ?_ (by norm_num) _
  unfold ATR.run
  dsimp only
  have htr : ∀ i, ix (trueRange h l (shift c 1)) i = .nan ∨ ∃ x, ix (trueRange h l (shift c 1)) i = .fin x ∧ 0 ≤ x := by
    intro i
    by_cases hi : i < h.length
    · rcases g.tr_cases hi with ⟨_, _, _, e⟩ | ⟨x, y, z, _, _, _, h4, h5, ⟨_, e⟩ | ⟨p, _, e⟩⟩
      · exact .inl e
      · exact .inr ⟨_, e, g.tr_nonneg e⟩
      · exact .inr ⟨_, e, g.tr_nonneg e⟩
    · left; rw [ix_ge (by simpa using hi)]; rfl
  generalize trueRange h l (shift c 1) = tr at htr
  by_cases hw : w = 0
  · rw [if_pos hw]
    intro i hi
    left
    rw [List.length_replicate] at hi
    simp [ix, List.getD, hi]
  rw [if_neg hw]
  have hw' : ((w : ℕ) : K) ≠ 0 := by exact_mod_cast hw
  have hwp : (0 : K) < w := by exact_mod_cast Nat.pos_of_ne_zero hw
  have hsm : smean (tr.take w) = .nan ∨ ∃ x, smean (tr.take w) = .fin x ∧ 0 ≤ x := by
    have hv : ∀ l : List (Val K), (∀ v ∈ l, v = .nan ∨ ∃ x, v = .fin x ∧ 0 ≤ x) →
        ∃ m : List K, valid l = m.map Val.fin ∧ ∀ x ∈ m, 0 ≤ x := by
      intro l
      induction l with
      | nil => intro _; exact ⟨[], rfl, by simp⟩
      | cons v l ih =>
        intro hl
        obtain ⟨m, e, hm⟩ := ih fun v hv => hl v (List.mem_cons_of_mem _ hv)
        rcases hl v List.mem_cons_self with rfl | ⟨x, rfl, hx⟩
        · exact ⟨m, by simpa [valid] using e, hm⟩
        · refine ⟨x :: m, by simpa [valid] using e, ?_⟩
          intro y hy
          rcases List.mem_cons.mp hy with rfl | hy
          · exact hx
          · exact hm y hy
    obtain ⟨m, e, hm⟩ := hv (tr.take w) (by
      intro v hv
      obtain ⟨j, hj, rfl⟩ := List.getElem_of_mem hv
      have hj' : j < tr.length := by simp at hj; omega
      have e1 : (tr.take w)[j] = ix tr j := by simp [ix, List.getD, hj']
      rw [e1]; exact htr j)
    unfold smean
    rw [e, List.length_map]
    split_ifs with h0
    · exact .inl rfl
    · right
      have h0' : ((m.length : ℕ) : K) ≠ 0 := by exact_mod_cast h0
      rw [sumL_fin, natF_fin, fin_div _ _ h0']
      exact ⟨_, rfl, div_nonneg (List.sum_nonneg hm) (Nat.cast_nonneg _)⟩
  have hstep : ∀ i, iter (ATR.step tr w) (lit 0) i = .nan ∨ ∃ x, iter (ATR.step tr w) (lit 0) i = .fin x ∧ 0 ≤ x := by
    intro i
    induction i with
    | zero => right; exact ⟨0, by simp [iter], le_refl _⟩
    | succ i ih =>
      show ATR.step tr w i (iter (ATR.step tr w) (lit 0) i) = _ ∨ ∃ x, ATR.step tr w i (iter (ATR.step tr w) (lit 0) i) = _ ∧ _
      generalize iter (ATR.step tr w) (lit 0) i = p at ih
      unfold ATR.step
      split_ifs
      · right; exact ⟨0, by simp, le_refl _⟩
      · exact hsm
      · rcases ih with rfl | ⟨x, rfl, hx⟩
        · left; simp
        · rcases htr i with e | ⟨y, e, hy⟩
          · left; rw [e]; simp
          · right
            rw [e, natF_fin, natF_fin, fin_mul, fin_add, fin_div _ _ hw']
            exact ⟨_, rfl, div_nonneg (add_nonneg (mul_nonneg hx (Nat.cast_nonneg _)) hy) hwp.le⟩
  intro i hi
  rw [length_tab] at hi
  rw [ix_tab_lt hi]
  exact hstep (i + 1)

example : averageTrueRange (qs [11, 13, 12, 16]) (qs [9, 10, 8, 15]) (qs [10, 13, 10, 15]) 2
    = .ok [.fin 0, .fin (5/2), .fin (15/4), .fin (39/8)] := by decide +kernel

end TA
