import Verif.Props.C02
import Verif.Lemmas.NaN
import Verif.Lemmas.AdxTake
import Verif.Lemmas.Toy

/-! # C03 — no look-ahead with `fillna=True`

The constant-fill part is `no_lookahead`. -/

set_option linter.unusedSectionVars false
set_option linter.unusedSimpArgs false

namespace TA

section
variable {F : Type} [Flt F] [NaNLaws F]

@[simp] theorem ATR.run_length (h l c : Series F) (w : Nat) : (ATR.run h l c w).length = c.length := by
  unfold ATR.run; split_ifs <;> simp

theorem isNaN_nan' : Flt.isNaN (nan : F) = true := NaNLaws.isNaN_nan

/-- once a value has been seen, forward filling leaves the last row defined -/
theorem ffill_last {t : Series F} {j m : Nat} (hj : j < m) (hm : m ≤ t.length)
    (h : Flt.isNaN (ix (ffill t) j) = false) : Flt.isNaN (ix (ffill t) (m - 1)) = false := by
  unfold ffill pre at h ⊢
  rw [ix_tab_lt (by omega)] at h ⊢
  have hne : valid (t.take (m - 1 + 1)) ≠ [] := by
    intro h0
    have h1 := valid_take_le t (show j + 1 ≤ m - 1 + 1 by omega)
    rw [h0] at h1
    have h2 : valid (t.take (j + 1)) = [] := List.length_eq_zero_iff.mp (by simpa using h1)
    simp only [h2, List.getLast?_nil, Option.getD_none, isNaN_nan'] at h
    cases h
  dsimp only
  rw [List.getLast?_eq_some_getLast hne]
  exact (mem_valid.mp (List.getLast_mem hne)).2

/-- A value seen in the first `m` rows stops the backfill from reaching any further. -/
theorem take_checkFillna_back' {s : Series F} {m : Nat} (hm : m ≤ s.length)
    (h : ∃ v ∈ checkFillna true .back (s.take m), Flt.isNaN v = false) :
    (checkFillna true .back s).take m = checkFillna true .back (s.take m) := by
  unfold checkFillna at h ⊢
  simp only [if_true] at h ⊢
  rw [← take_replaceInf, ← take_ffill] at h ⊢
  have hm' : m ≤ (ffill (replaceInf s)).length := by simpa using hm
  have hlast : ∃ j, j < m ∧ Flt.isNaN (ix (ffill (replaceInf s)) j) = false := by
    obtain ⟨v, hv, hn⟩ := h
    unfold bfill tab at hv
    rw [List.mem_map] at hv
    obtain ⟨i, _, rfl⟩ := hv
    cases hc : (valid (((ffill (replaceInf s)).take m).drop i)).head? with
    | none => simp only [hc, Option.getD_none, isNaN_nan'] at hn; cases hn
    | some v =>
      have h1 := List.mem_of_head? hc
      obtain ⟨h2, h3⟩ := mem_valid.mp h1
      have h4 := List.mem_of_mem_drop h2
      obtain ⟨j, hj, rfl⟩ := List.mem_iff_getElem.mp h4
      have hj' : j < m := by simp at hj; omega
      refine ⟨j, hj', ?_⟩
      rw [← h3, ← ix_lt hj, ix_take_lt hj']
  obtain ⟨j, hj, hjn⟩ := hlast
  have hL := ffill_last hj (by simpa using hm) hjn
  generalize ffill (replaceInf s) = T at *
  unfold bfill
  rw [take_tab]
  apply tab_congr
  · simp
  · intro i hi
    have hi' : i < m := by omega
    have e : T.drop i = (T.take m).drop i ++ T.drop m := by
      conv_lhs => rw [← List.take_append_drop m T]
      rw [List.drop_append_of_le_length (by simp; omega)]
    rw [e, valid_append]
    have hmem : ix T (m - 1) ∈ valid ((T.take m).drop i) := by
      refine mem_valid.mpr ⟨?_, hL⟩
      rw [List.mem_iff_getElem]
      refine ⟨m - 1 - i, by simp; omega, ?_⟩
      simp only [List.getElem_drop, List.getElem_take]
      rw [ix_lt (by omega)]
      congr 1
      omega
    rw [List.head?_append_of_ne_nil _ (List.ne_nil_of_mem hmem)]

/-- backfilling a causal pipeline, then possibly moving the column down -/
theorem nla_fill {N : List (Bar F) → Except PyErr (Series F)} (hN : NoLookAhead N)
    (hrow : RowForRow N) (G : Series F → Series F) (hG : ∀ s m, (G s).take m = G (s.take m))
    (hG2 : ∀ s, (∃ v ∈ G s, Flt.isNaN v = false) → ∃ v ∈ s, Flt.isNaN v = false)
    {past future : List (Bar F)} {out : Series F} (hx : ∃ v ∈ out, Flt.isNaN v = false)
    (hout : (N past).map (fun s => G (checkFillna true .back s)) = .ok out) :
    ∃ out', (N (past ++ future)).map (fun s => G (checkFillna true .back s)) = .ok out' ∧
      out'.take past.length = out := by
  obtain ⟨s, e2, rfl⟩ := except_map_ok hout
  obtain ⟨s3, e5, e6⟩ := hN _ future _ e2
  refine ⟨_, by rw [e5]; rfl, ?_⟩
  have hl := hrow _ _ e5
  rw [hG, take_checkFillna_back' (by rw [hl]; simp), e6]
  rw [e6]
  exact hG2 _ hx

/-- the same for a pipeline that never raises -/
theorem nla_fill_ok (T : List (Bar F) → Series F) (hT : ∀ b m, (T b).take m = T (b.take m))
    (hl : ∀ b, (T b).length = b.length)
    {f : List (Bar F) → Except PyErr (Series F)} (hf : ∀ b, f b = .ok (checkFillna true .back (T b)))
    {past future : List (Bar F)} {out : Series F}
    (hx : ∃ v ∈ out, Flt.isNaN v = false) (hout : f past = .ok out) :
    ∃ out', f (past ++ future) = .ok out' ∧ out'.take past.length = out := by
  rw [hf] at hout ⊢
  exact nla_fill (N := fun b => .ok (T b)) (nla_ok hT) (fun r o h => by cases h; exact hl r) id
    (fun _ _ => rfl) (fun _ h => h) hx hout

/-- the same with a final downward shift -/
theorem nla_fill_shift (T : List (Bar F) → Series F) (hT : ∀ b m, (T b).take m = T (b.take m))
    (hl : ∀ b, (T b).length = b.length) (k : Int) (hk : 0 ≤ k)
    {f : List (Bar F) → Except PyErr (Series F)}
    (hf : ∀ b, f b = .ok (shiftInt (checkFillna true .back (T b)) k))
    {past future : List (Bar F)} {out : Series F}
    (hx : ∃ v ∈ out, Flt.isNaN v = false) (hout : f past = .ok out) :
    ∃ out', f (past ++ future) = .ok out' ∧ out'.take past.length = out := by
  rw [hf] at hout ⊢
  refine nla_fill (N := fun b => .ok (T b)) (nla_ok hT) (fun r o h => by cases h; exact hl r) (fun s => shiftInt s k)
    (fun _ _ => take_shiftInt _ _ hk _) ?_ hx hout
  rintro s ⟨v, hv, hn⟩
  unfold shiftInt tab at hv
  rw [List.mem_map] at hv
  obtain ⟨i, hi, rfl⟩ := hv
  split_ifs at hn with h1
  · rw [isNaN_nan'] at hn; cases hn
  · by_cases h2 : ((i : Int) - k).toNat < s.length
    · exact ⟨_, by rw [ix_lt h2]; exact List.getElem_mem h2, hn⟩
    · rw [ix_ge (by omega), isNaN_nan'] at hn; cases hn

/-- the same for a pipeline guarded by a row count -/
theorem nla_fill_guard (k : Nat) (T : List (Bar F) → Series F) (hT : ∀ b m, (T b).take m = T (b.take m))
    (hl : ∀ b, (T b).length = b.length)
    {f : List (Bar F) → Except PyErr (Series F)}
    (hf : ∀ b, f b = if b.length < k then .error .indexError else .ok (checkFillna true .back (T b)))
    {past future : List (Bar F)} {out : Series F}
    (hx : ∃ v ∈ out, Flt.isNaN v = false) (hout : f past = .ok out) :
    ∃ out', f (past ++ future) = .ok out' ∧ out'.take past.length = out := by
  have hf' : ∀ b, f b = (if b.length < k then (Except.error .indexError : Except PyErr (Series F)) else .ok (T b)).map
      (fun s => id (checkFillna true .back s)) := by
    intro b; rw [hf, map_guard]; rfl
  rw [hf'] at hout ⊢
  refine nla_fill (N := fun b => if b.length < k then .error .indexError else .ok (T b))
    (nla_guard (p := fun n => n < k) (fun n m h1 h2 => by omega) (nla_ok hT)) ?_ id
    (fun _ _ => rfl) (fun _ h => h) hx hout
  intro r o h
  simp only at h
  split_ifs at h
  cases h; exact hl r

end

variable {F : Type} [FltFn F] [NaNLaws F]

/-- C03, backfill part: as soon as the output produced so far contains one defined value, appending rows never changes
an output row already produced.  (Otherwise every row so far is NaN, and the first value to appear is written into all
of them: `backfill_leaks`.) -/
theorem no_lookahead_backfill (ind : Ind F) (hp : ind.Plain) (hb : ind.BackFill)
    (past future : List (Bar F)) (out : Series F)
    (hout : ind.eval true past = .ok out) (hx : ∃ v ∈ out, Flt.isNaN v = false) :
    ∃ out', ind.eval true (past ++ future) = .ok out' ∧ out'.take past.length = out := by
  cases ind
  all_goals try (exact absurd hp id)
  all_goals try (exact absurd hb id)
  all_goals try simp only [Ind.Plain] at hp
  all_goals try subst hp
  case psar s mx =>
    have hN := nla_psar s mx true (fun o => o.psarS) (fun o m _ => rfl)
    have e : ∀ b, Ind.eval true b (Ind.psar s mx) = ((PSAR.new (highs b) (lows b) (closes b) .positional s mx
        true).map (fun o => o.psarS)).map
        (fun s => id (checkFillna true .back s)) := by
      intro b
      simp only [Ind.eval]
      by_cases h : 0 < (closes b).length
      · rw [PSAR.new_eq _ _ _ _ _ _ h]; rfl
      · unfold PSAR.new; rw [if_pos (by omega)]; rfl
    rw [e] at hout ⊢
    exact nla_fill hN (fun r o h => by
      have h1 := row_for_row (Ind.psar s mx) true r (checkFillna true .back o) (by
        show Ind.eval true r _ = _; rw [e]; exact congrArg (Except.map _) h)
      simpa using h1) id (fun _ _ => rfl) (fun _ h => h) hx hout
  case psarUp s mx =>
    have hN := nla_psar s mx true (fun o => o.up) (fun o m _ => rfl)
    have e : ∀ b, Ind.eval true b (Ind.psarUp s mx) = ((PSAR.new (highs b) (lows b) (closes b) .positional s mx
        true).map (fun o => o.up)).map
        (fun s => id (checkFillna true .back s)) := by
      intro b
      simp only [Ind.eval]
      by_cases h : 0 < (closes b).length
      · rw [PSAR.new_eq _ _ _ _ _ _ h]; rfl
      · unfold PSAR.new; rw [if_pos (by omega)]; rfl
    rw [e] at hout ⊢
    exact nla_fill hN (fun r o h => by
      have h1 := row_for_row (Ind.psarUp s mx) true r (checkFillna true .back o) (by
        show Ind.eval true r _ = _; rw [e]; exact congrArg (Except.map _) h)
      simpa using h1) id (fun _ _ => rfl) (fun _ h => h) hx hout
  case psarDown s mx =>
    have hN := nla_psar s mx true (fun o => o.down) (fun o m _ => rfl)
    have e : ∀ b, Ind.eval true b (Ind.psarDown s mx) = ((PSAR.new (highs b) (lows b) (closes b) .positional s mx
        true).map (fun o => o.down)).map
        (fun s => id (checkFillna true .back s)) := by
      intro b
      simp only [Ind.eval]
      by_cases h : 0 < (closes b).length
      · rw [PSAR.new_eq _ _ _ _ _ _ h]; rfl
      · unfold PSAR.new; rw [if_pos (by omega)]; rfl
    rw [e] at hout ⊢
    exact nla_fill hN (fun r o h => by
      have h1 := row_for_row (Ind.psarDown s mx) true r (checkFillna true .back o) (by
        show Ind.eval true r _ = _; rw [e]; exact congrArg (Except.map _) h)
      simpa using h1) id (fun _ _ => rfl) (fun _ h => h) hx hout
  case dcHband w off =>
    by_cases hw : w < 1
    · simp only [Ind.eval, Donchian.new_eq, map_guard, hw] at hout; simp at hout
    by_cases h0 : off = 0
    · subst h0
      exact nla_fill_ok (f := fun b => Ind.eval true b (.dcHband w 0)) (fun b => rollMax w 1 (highs b))
          (fun b m => by take_simp) (fun b => by simp [Ichimoku.spanA, Ichimoku.mid, ATR.run_length]) (fun b => by simp only [Ind.eval, Donchian.new_eq, map_guard, hw, and_false,
            if_false, if_true, Except.map, Donchian.hband, Donchian.lband,
            Donchian.mband, Donchian.off, ne_eq, not_true_eq_false]) hx hout
    · exact nla_fill_shift (f := fun b => Ind.eval true b (.dcHband w off)) (fun b => rollMax w 1 (highs b))
          (fun b m => by take_simp) (fun b => by simp [Ichimoku.spanA, Ichimoku.mid, ATR.run_length]) off hp (fun b => by simp only [Ind.eval, Donchian.new_eq, map_guard, hw, and_false,
            if_false, if_true, Except.map, Donchian.hband, Donchian.lband,
            Donchian.mband, Donchian.off, ne_eq, h0, not_false_eq_true]) hx hout
  case dcLband w off =>
    by_cases hw : w < 1
    · simp only [Ind.eval, Donchian.new_eq, map_guard, hw] at hout; simp at hout
    by_cases h0 : off = 0
    · subst h0
      exact nla_fill_ok (f := fun b => Ind.eval true b (.dcLband w 0)) (fun b => rollMin w 1 (lows b))
          (fun b m => by take_simp) (fun b => by simp [Ichimoku.spanA, Ichimoku.mid, ATR.run_length]) (fun b => by simp only [Ind.eval, Donchian.new_eq, map_guard, hw, and_false,
            if_false, if_true, Except.map, Donchian.hband, Donchian.lband,
            Donchian.mband, Donchian.off, ne_eq, not_true_eq_false]) hx hout
    · exact nla_fill_shift (f := fun b => Ind.eval true b (.dcLband w off)) (fun b => rollMin w 1 (lows b))
          (fun b m => by take_simp) (fun b => by simp [Ichimoku.spanA, Ichimoku.mid, ATR.run_length]) off hp (fun b => by simp only [Ind.eval, Donchian.new_eq, map_guard, hw, and_false,
            if_false, if_true, Except.map, Donchian.hband, Donchian.lband,
            Donchian.mband, Donchian.off, ne_eq, h0, not_false_eq_true]) hx hout
  case dcMband w off =>
    by_cases hw : w < 1
    · simp only [Ind.eval, Donchian.new_eq, map_guard, hw] at hout; simp at hout
    by_cases h0 : off = 0
    · subst h0
      exact nla_fill_ok (f := fun b => Ind.eval true b (.dcMband w 0)) (fun b => sadd (divc (ssub (rollMax w 1 (highs b)) (rollMin w 1 (lows b))) (lit 2)) (rollMin w 1 (lows b)))
          (fun b m => by take_simp) (fun b => by simp [Ichimoku.spanA, Ichimoku.mid, ATR.run_length]) (fun b => by simp only [Ind.eval, Donchian.new_eq, map_guard, hw, and_false,
            if_false, if_true, Except.map, Donchian.hband, Donchian.lband,
            Donchian.mband, Donchian.off, ne_eq, not_true_eq_false]) hx hout
    · exact nla_fill_shift (f := fun b => Ind.eval true b (.dcMband w off)) (fun b => sadd (divc (ssub (rollMax w 1 (highs b)) (rollMin w 1 (lows b))) (lit 2)) (rollMin w 1 (lows b)))
          (fun b m => by take_simp) (fun b => by simp [Ichimoku.spanA, Ichimoku.mid, ATR.run_length]) off hp (fun b => by simp only [Ind.eval, Donchian.new_eq, map_guard, hw, and_false,
            if_false, if_true, Except.map, Donchian.hband, Donchian.lband,
            Donchian.mband, Donchian.off, ne_eq, h0, not_false_eq_true]) hx hout
  case kcMband w wa o k =>
    cases o
    · by_cases hw : w < 1
      · simp only [Ind.eval, Keltner.new_atr_eq, hw, if_true] at hout; cases hout
      exact nla_fill_guard (f := fun b => Ind.eval true b (.kcMband w wa false k)) (max wa 1)
        (fun b => ewm (alphaOfSpan w) 1 (closes b))
        (fun b m => by take_simp; try rw [take_atr_run _ _ _ _ _ (by simp)]) (fun b => by simp [Ichimoku.spanA, Ichimoku.mid, ATR.run_length])
        (fun b => by simp only [Ind.eval, Keltner.new_atr_eq, hw, if_false, map_guard, List.length_map]; rfl)
        hx hout
    · by_cases hw : w < 1
      · simp only [Ind.eval, Keltner.new_original_eq, hw] at hout; simp [Except.map] at hout
      exact nla_fill_ok (f := fun b => Ind.eval true b (.kcMband w wa true k))
        (fun b => rollMean w 1 (typicalPrice (highs b) (lows b) (closes b)))
        (fun b m => by take_simp) (fun b => by simp [Ichimoku.spanA, Ichimoku.mid, ATR.run_length])
        (fun b => by simp only [Ind.eval, Keltner.new_original_eq, map_guard, hw, and_false, if_false]; rfl)
        hx hout
  case kcHband w wa o k =>
    cases o
    · by_cases hw : w < 1
      · simp only [Ind.eval, Keltner.new_atr_eq, hw, if_true] at hout; cases hout
      exact nla_fill_guard (f := fun b => Ind.eval true b (.kcHband w wa false k)) (max wa 1)
        (fun b => sadd (ewm (alphaOfSpan w) 1 (closes b)) (cmul k (checkFillna true (.const (lit 0)) (ATR.run (highs b) (lows b) (closes b) wa))))
        (fun b m => by take_simp; try rw [take_atr_run _ _ _ _ _ (by simp)]) (fun b => by simp [Ichimoku.spanA, Ichimoku.mid, ATR.run_length])
        (fun b => by simp only [Ind.eval, Keltner.new_atr_eq, hw, if_false, map_guard, List.length_map]; rfl)
        hx hout
    · by_cases hw : w < 1
      · simp only [Ind.eval, Keltner.new_original_eq, hw] at hout; simp [Except.map] at hout
      exact nla_fill_ok (f := fun b => Ind.eval true b (.kcHband w wa true k))
        (fun b => rollMean w 0 (divc (sadd (ssub (cmul (lit 4) (highs b)) (cmul (lit 2) (lows b))) (closes b)) (lit 3)))
        (fun b m => by take_simp) (fun b => by simp [Ichimoku.spanA, Ichimoku.mid, ATR.run_length])
        (fun b => by simp only [Ind.eval, Keltner.new_original_eq, map_guard, hw, and_false, if_false]; rfl)
        hx hout
  case kcLband w wa o k =>
    cases o
    · by_cases hw : w < 1
      · simp only [Ind.eval, Keltner.new_atr_eq, hw, if_true] at hout; cases hout
      exact nla_fill_guard (f := fun b => Ind.eval true b (.kcLband w wa false k)) (max wa 1)
        (fun b => ssub (ewm (alphaOfSpan w) 1 (closes b)) (cmul k (checkFillna true (.const (lit 0)) (ATR.run (highs b) (lows b) (closes b) wa))))
        (fun b m => by take_simp; try rw [take_atr_run _ _ _ _ _ (by simp)]) (fun b => by simp [Ichimoku.spanA, Ichimoku.mid, ATR.run_length])
        (fun b => by simp only [Ind.eval, Keltner.new_atr_eq, hw, if_false, map_guard, List.length_map]; rfl)
        hx hout
    · by_cases hw : w < 1
      · simp only [Ind.eval, Keltner.new_original_eq, hw] at hout; simp [Except.map] at hout
      exact nla_fill_ok (f := fun b => Ind.eval true b (.kcLband w wa true k))
        (fun b => rollMean w 0 (divc (sadd (sadd (cmul (lit (-2)) (highs b)) (cmul (lit 4) (lows b))) (closes b)) (lit 3)))
        (fun b m => by take_simp) (fun b => by simp [Ichimoku.spanA, Ichimoku.mid, ATR.run_length])
        (fun b => by simp only [Ind.eval, Keltner.new_original_eq, map_guard, hw, and_false, if_false]; rfl)
        hx hout
  case cr =>
    have hN : NoLookAhead (fun b : List (Bar F) => if b.length = 0 then .error .indexError else
        Except.ok (CR.run (closes b))) := by
      intro past future out h
      simp only at h
      split_ifs at h with h3
      have h5 : ¬ (past ++ future).length = 0 := by simp at h3 ⊢; simp [h3]
      simp only [if_neg h5]
      refine ⟨_, rfl, ?_⟩
      cases h
      simp only [CR.run]
      take_simp
      have e : ix (closes (past ++ future)) 0 = ix (closes past) 0 := by
        unfold closes
        rw [List.map_append, ix_append_left (by simp; omega)]
      rw [← List.map_take, List.take_left, e]
    have e : ∀ b : List (Bar F), Ind.eval true b .cr = (if b.length = 0 then
        (Except.error .indexError : Except PyErr (Series F)) else .ok (CR.run (closes b))).map
        (fun s => id (checkFillna true .back s)) := by
      intro b
      simp only [Ind.eval, cumulativeReturn, map_guard, List.length_map, id]
    rw [e] at hout ⊢
    exact nla_fill hN (fun r o h => by
      have h1 := row_for_row (Ind.cr) true r (checkFillna true .back o) (by
        show Ind.eval true r _ = _; rw [e]; exact congrArg (Except.map _) h)
      simpa using h1) id (fun _ _ => rfl) (fun _ h => h) hx hout
  case ichimokuConv w1 =>
    exact nla_fill_ok (f := fun b => Ind.eval true b (.ichimokuConv w1)) (fun b => Ichimoku.mid (highs b) (lows b) w1 (minp true w1))
      (fun b m => by (try simp only [Ichimoku.spanA, Ichimoku.mid]); take_simp) (fun b => by simp [Ichimoku.spanA, Ichimoku.mid, ATR.run_length]) (fun b => rfl) hx hout
  case ichimokuBase w2 =>
    exact nla_fill_ok (f := fun b => Ind.eval true b (.ichimokuBase w2)) (fun b => Ichimoku.mid (highs b) (lows b) w2 (minp true w2))
      (fun b m => by (try simp only [Ichimoku.spanA, Ichimoku.mid]); take_simp) (fun b => by simp [Ichimoku.spanA, Ichimoku.mid, ATR.run_length]) (fun b => rfl) hx hout
  case ichimokuA w1 w2 =>
    exact nla_fill_ok (f := fun b => Ind.eval true b (.ichimokuA w1 w2 false)) (fun b => Ichimoku.spanA (highs b) (lows b) w1 w2 true)
      (fun b m => by (try simp only [Ichimoku.spanA, Ichimoku.mid]); take_simp) (fun b => by simp [Ichimoku.spanA, Ichimoku.mid, ATR.run_length]) (fun b => rfl) hx hout
  case ichimokuB w2 w3 =>
    exact nla_fill_ok (f := fun b => Ind.eval true b (.ichimokuB w2 w3 false)) (fun b => Ichimoku.mid (highs b) (lows b) w3 0)
      (fun b m => by (try simp only [Ichimoku.spanA, Ichimoku.mid]); take_simp) (fun b => by simp [Ichimoku.spanA, Ichimoku.mid, ATR.run_length]) (fun b => rfl) hx hout
  case bbMavg w dev =>
    exact nla_fill_ok (f := fun b => Ind.eval true b (.bbMavg w dev)) (fun b => rollMean w (minp true w) (closes b))
      (fun b m => by (try simp only [Ichimoku.spanA, Ichimoku.mid]); take_simp) (fun b => by simp [Ichimoku.spanA, Ichimoku.mid, ATR.run_length]) (fun b => rfl) hx hout
  case bbHband w dev =>
    exact nla_fill_ok (f := fun b => Ind.eval true b (.bbHband w dev)) (fun b => sadd (rollMean w (minp true w) (closes b)) (cmul dev (rollStd w (minp true w) (closes b))))
      (fun b m => by (try simp only [Ichimoku.spanA, Ichimoku.mid]); take_simp) (fun b => by simp [Ichimoku.spanA, Ichimoku.mid, ATR.run_length]) (fun b => rfl) hx hout
  case bbLband w dev =>
    exact nla_fill_ok (f := fun b => Ind.eval true b (.bbLband w dev)) (fun b => ssub (rollMean w (minp true w) (closes b)) (cmul dev (rollStd w (minp true w) (closes b))))
      (fun b m => by (try simp only [Ichimoku.spanA, Ichimoku.mid]); take_simp) (fun b => by simp [Ichimoku.spanA, Ichimoku.mid, ATR.run_length]) (fun b => rfl) hx hout

section examples
attribute [local instance] toyFn

/-- The hypotheses are met by an up-trend: the filled `psar_up` so far has defined values. -/
example : (Ind.psarUp (lit (1/50)) (lit (1/5)) : Ind (Val ℚ)).Plain ∧
    (Ind.psarUp (lit (1/50)) (lit (1/5)) : Ind (Val ℚ)).BackFill ∧
    (Ind.psarUp (lit (1/50)) (lit (1/5)) : Ind (Val ℚ)).eval true [qbar 3 1 2 1, qbar 4 3 3 1, qbar 6 4 5 1] =
      .ok [.fin 1, .fin 1, .fin 1] :=
  ⟨trivial, trivial, by decide +kernel⟩

/-- Witness for the failure: the conversion line of a missing bar is filled from the next bar. -/
theorem backfill_leaks : ¬ NoLookAhead (fun b => (Ind.ichimokuConv 2 : Ind (Val ℚ)).eval true b) :=
  not_nla [⟨.nan, .nan, .nan, .nan⟩] [qb 5] (by decide +kernel)

/-- The same for `psar_up`, on perfectly good data: its first two rows are never defined. -/
theorem backfill_leaks_psar :
    ¬ NoLookAhead (fun b => (Ind.psarUp (lit (1/50)) (lit (1/5)) : Ind (Val ℚ)).eval true b) :=
  not_nla [qbar 3 1 2 1, qbar 4 3 3 1] [qbar 6 4 5 1] (by decide +kernel)

end examples

end TA
