import Verif.Props.C09
import Verif.Props.C41
import Verif.Props.C52
import Verif.Props.C57
import Verif.Props.C86

/-! # C89: the documented pipeline

README and `examples_to_use`: `df = dropna(df)`, then `df = add_all_ta_features(df, …, fillna=True)`. -/

set_option linter.unusedSectionVars false

namespace TA

open Finset

/-! ### the frame that `dropna` hands on -/

section
variable {F : Type} [FltFn F]

/-- The index: integer labels (`key` reads them), or labels of another kind. -/
def Table.index (key : Option (String → Int)) (t : Table F) : Idx :=
  match key with
  | none => .positional
  | some k => .labels (t.labels.map k)

/-- the numeric columns -/
def numCols : List (String × Col F) → List (String × Series F)
  | [] => []
  | (m, .num s) :: rest => (m, s) :: numCols rest
  | (_, .other _) :: rest => numCols rest

/-- The frame as the wrapper sees it: columns that are not numeric are never looked at. -/
def Table.frame (key : Option (String → Int)) (t : Table F) : Frame F := ⟨t.index key, numCols t.cols⟩

theorem lookup_numCols {m : String} {s : Series F} : ∀ {cols : List (String × Col F)}, cols.lookup m = some (.num s) →
    (numCols cols).lookup m = some s
  | [], h => by simp at h
  | (n, c) :: rest, h => by
    rw [List.lookup_cons] at h
    by_cases hmn : (m == n) = true
    · rw [hmn] at h
      simp only [Option.some.injEq] at h
      subst h
      simp [numCols, List.lookup_cons, hmn]
    · rw [Bool.not_eq_true] at hmn
      rw [hmn] at h
      cases c with
      | num u =>
        rw [numCols, List.lookup_cons, hmn]
        exact lookup_numCols h
      | other u =>
        rw [numCols]
        exact lookup_numCols h

theorem get_frame (key : Option (String → Int)) {t : Table F} {m : String} {s : Series F} (h : t.cols.lookup m = some (.num s)) :
    (t.frame key).get m = .ok s := by
  unfold Frame.get Table.frame
  rw [lookup_numCols h]

theorem mem_of_lookup {α : Type} {m : String} {c : α} : ∀ {cols : List (String × α)}, cols.lookup m = some c → (m, c) ∈ cols
  | [], h => by simp at h
  | (n, d) :: rest, h => by
    rw [List.lookup_cons] at h
    by_cases hmn : (m == n) = true
    · rw [hmn] at h
      simp only [Option.some.injEq] at h
      rw [beq_iff_eq] at hmn
      rw [hmn, h]
      exact List.mem_cons_self
    · rw [Bool.not_eq_true] at hmn
      rw [hmn] at h
      exact List.mem_cons_of_mem _ (mem_of_lookup h)

theorem lookup_pick {m : String} {c : Col F} (rows : List Nat) : ∀ {cols : List (String × Col F)}, cols.lookup m = some c →
    (cols.map (fun p => (p.1, p.2.pick rows))).lookup m = some (c.pick rows)
  | [], h => by simp at h
  | (n, d) :: rest, h => by
    rw [List.lookup_cons] at h
    rw [List.map_cons, List.lookup_cons]
    by_cases hmn : (m == n) = true
    · rw [hmn] at h ⊢
      simp only [Option.some.injEq] at h ⊢
      subst h
      rfl
    · rw [Bool.not_eq_true] at hmn
      rw [hmn] at h ⊢
      exact lookup_pick rows h

/-! ### the up and down series have a row for every bar, whatever the index -/

theorem PSAR.step_len (high low : Series F) (s mx : F) (i : Nat) (st : PsarSt F) :
    (PSAR.step high low s mx i st).up.length = st.up.length ∧ (PSAR.step high low s mx i st).down.length = st.down.length := by
  unfold PSAR.step
  dsimp only
  constructor <;> split_ifs <;> simp

theorem PSAR.run_len (high low close : Series F) (idx : Idx) (s mx : F) :
    (PSAR.run high low close idx s mx).up.length = close.length ∧ (PSAR.run high low close idx s mx).down.length = close.length := by
  unfold PSAR.run
  refine iter_inv (P := fun st : PsarSt F => st.up.length = close.length ∧ st.down.length = close.length) ?_ ?_ _
  · simp [PSAR.init]
  · intro k st h
    obtain ⟨a, b⟩ := PSAR.step_len high low s mx (k + 2) st
    exact ⟨a.trans h.1, b.trans h.2⟩

end

/-! ### clean bars: nothing is left empty -/

/-- a row of numbers with a close other than 0 -/
def FinBar (r : Bar (Val ℝ)) : Prop := ∃ h l c v : ℝ, r = ⟨.fin h, .fin l, .fin c, .fin v⟩ ∧ c ≠ 0

theorem fin_split (b : List (Bar (Val ℝ))) (hb : ∀ r ∈ b, FinBar r) :
    ∃ h l c v : Nat → ℝ, highs b = ser b.length h ∧ lows b = ser b.length l ∧ closes b = ser b.length c ∧
      volumes b = ser b.length v ∧ ∀ i, c i ≠ 0 := by
  have col : ∀ (f : Bar (Val ℝ) → Val ℝ), (∀ r ∈ b, ∃ x, f r = .fin x ∧ x ≠ 0) →
      ∃ g : Nat → ℝ, b.map f = ser b.length g ∧ ∀ i, g i ≠ 0 := by
    intro f hf
    have : ∀ i, ∃ x : ℝ, x ≠ 0 ∧ ∀ hi : i < b.length, f b[i] = .fin x := fun i => by
      by_cases hi : i < b.length
      · obtain ⟨x, h1, h2⟩ := hf _ (List.getElem_mem hi)
        exact ⟨x, h2, fun _ => h1⟩
      · exact ⟨1, one_ne_zero, fun h => absurd h hi⟩
    choose g g0 g1 using this
    refine ⟨g, List.ext_getElem (by simp [ser]) fun i h1 h2 => ?_, g0⟩
    rw [List.getElem_map, g1 i (by simpa using h1)]
    simp [ser, tab]
  have col' : ∀ (f : Bar (Val ℝ) → Val ℝ), (∀ r ∈ b, ∃ x, f r = .fin x) → ∃ g : Nat → ℝ, b.map f = ser b.length g := by
    intro f hf
    have : ∀ i, ∃ x : ℝ, ∀ hi : i < b.length, f b[i] = .fin x := fun i => by
      by_cases hi : i < b.length
      · obtain ⟨x, h1⟩ := hf _ (List.getElem_mem hi)
        exact ⟨x, fun _ => h1⟩
      · exact ⟨1, fun h => absurd h hi⟩
    choose g g1 using this
    refine ⟨g, List.ext_getElem (by simp [ser]) fun i h1 h2 => ?_⟩
    rw [List.getElem_map, g1 i (by simpa using h1)]
    simp [ser, tab]
  obtain ⟨h, e1⟩ := col' (·.high) fun r hr => by obtain ⟨h, l, c, v, rfl, _⟩ := hb r hr; exact ⟨h, rfl⟩
  obtain ⟨l, e2⟩ := col' (·.low) fun r hr => by obtain ⟨h, l, c, v, rfl, _⟩ := hb r hr; exact ⟨l, rfl⟩
  obtain ⟨c, e3, e0⟩ := col (·.close) fun r hr => by obtain ⟨h, l, c, v, rfl, q⟩ := hb r hr; exact ⟨c, rfl, q⟩
  obtain ⟨v, e4⟩ := col' (·.volume) fun r hr => by obtain ⟨h, l, c, v, rfl, _⟩ := hb r hr; exact ⟨v, rfl⟩
  exact ⟨h, l, c, v, e1, e2, e3, e4, e0⟩

theorem Def.allNum {s : Series (Val ℝ)} {n : Nat} {f : Nat → ℝ} (h : Def s n 0 f) : ∀ x ∈ s, Num x := by
  refine forall_ix (P := Num) fun i hi => ?_
  rw [h.val i (by rw [← h.len]; exact hi) (Nat.zero_le _)]
  exact ⟨rfl, rfl⟩

/-- The outputs that are empty nowhere on clean bars when filled: all but the stop and its two halves, the Donchian outputs shifted by
an offset, and the Keltner lines built on the ATR (not claimed). -/
def Ind.complete {F : Type} : Ind F → Prop
  | .psar .. | .psarUp .. | .psarDown .. => False
  | .dcHband _ off | .dcLband _ off | .dcMband _ off | .dcWband _ off | .dcPband _ off => off = 0
  | .kcMband _ _ o _ | .kcHband _ _ o _ | .kcLband _ _ o _ => o = true
  | _ => True

theorem gapfree_vis {n w : Nat} {s : Series (Val ℝ)} {f : Nat → ℝ} (h : Def s n 0 f) :
    ∀ x ∈ checkFillna true .back (Ichimoku.vis true w s), Num x := by
  have hv : ∀ x ∈ Ichimoku.vis true w s, Num x := by
    refine forall_ix (P := Num) fun i hi => ?_
    unfold Ichimoku.vis at hi ⊢
    rw [if_pos rfl] at hi ⊢
    have hi : i < s.length := by simpa using hi
    rw [ix_shift hi]
    obtain ⟨x, hx⟩ := vis_fin (w := w) h (by rw [← h.len]; exact hi)
    rw [hx]
    exact ⟨rfl, rfl⟩
  rw [checkFillna_of_num hv]
  exact hv

/-- C89. On rows of numbers (and closes other than 0), with any parameters, every complete output has a number on every row. -/
theorem clean_gapfree (x : Ind (Val ℝ)) (hx : x.Sane) (hc : x.complete) (idx : Idx) {b : List (Bar (Val ℝ))} (hb : ∀ r ∈ b, FinBar r)
    {out : Series (Val ℝ)} (ho : x.evalAt idx true b = .ok out) : ∀ y ∈ out, Num y := by
  by_cases hf : x.ConstFill ∧ x.evalAt idx true b = x.eval true b
  · exact fillna_const_gapfree x hf.1 b out (hf.2 ▸ ho)
  obtain ⟨h, l, c, v, e1, e2, e3, e4, c0⟩ := fin_split b hb
  generalize hn : b.length = n at *
  replace hf : x.ConstFill → x.evalAt idx true b = x.eval true b → False := fun p q => hf ⟨p, q⟩
  cases x
  all_goals first | exact (hf id rfl).elim | skip
  all_goals first | exact (hf hc rfl).elim | skip
  all_goals first | exact absurd hc id | skip
  case psarUpInd s m | psarDownInd s m =>
    obtain ⟨o, ho, rfl⟩ := except_map_ok ho
    exact fun y hy => gapfree_flag hy
  all_goals simp only [Ind.evalAt, Ind.eval, e1, e2, e3] at ho
  case sma w =>
    rw [← Except.ok.inj ho]
    exact (sma_fill_formula n c w hx).allNum
  case ema w =>
    obtain ⟨e, _, _, out', h1, h2⟩ := ema_recurrence n c w hx true
    rw [h1] at ho
    rw [← Except.ok.inj ho]
    exact h2.allNum
  case kama w p q =>
    rw [← Except.ok.inj ho]
    have hl : (KAMA.run (ser n c) w p q true).length = n := by simp [KAMA.run, ser]
    have F := checkFillna_isFilled (.ser (ser n c)) (KAMA.run (ser n c) w p q true)
    refine forall_ix (P := Num) fun i hi => ?_
    have hi : i < n := by rw [← hl, ← F.rows]; exact hi
    rcases latest (fun k => Num (ix (KAMA.run (ser n c) w p q true) k)) i with ⟨j, h1, h2, h3⟩ | h1
    · show Num (ix (checkFillna true _ _) i)
      rw [F.forward j i h1 (by rw [hl]; exact hi) h2 h3]; exact h2
    · have := F.first i (by rw [hl]; exact hi) h1
      simp only at this
      show Num (ix (checkFillna true _ _) i)
      rw [this, (def_ser n c).val i hi (Nat.zero_le _)]
      exact ⟨rfl, rfl⟩
  case ichimokuConv w =>
    obtain ⟨_, _, _, _, _, _, d, _⟩ := ichimoku_formula n h l hx hx hx true
    rw [← Except.ok.inj ho]; exact d.allNum
  case ichimokuBase w =>
    obtain ⟨_, _, _, _, _, _, d, _⟩ := ichimoku_formula n h l hx hx hx true
    rw [← Except.ok.inj ho]; exact d.allNum
  case ichimokuA w1 w2 vis =>
    obtain ⟨_, _, _, _, _, _, _, _, d, _⟩ := ichimoku_formula n h l hx.1 hx.2 hx.1 true
    rw [← Except.ok.inj ho]
    cases vis with
    | false => exact d.allNum
    | true =>
      have a := def_mid n h l hx.1 (minp_le true w1)
      have b := def_mid n h l hx.2 (minp_le true w2)
      have := (a.sadd b).cmul (1 / 2)
      have e : max (minp true w1 - 1) (minp true w2 - 1) = 0 := by simp [minp]
      rw [e] at this
      have e2 : Ichimoku.spanA (ser n h) (ser n l) w1 w2 true = cmul (.fin (1 / 2)) (sadd (Ichimoku.mid (ser n h) (ser n l) w1 (minp true w1))
          (Ichimoku.mid (ser n h) (ser n l) w2 (minp true w2))) := by
        unfold Ichimoku.spanA
        rw [lit_fin]
        push_cast
        rfl
      rw [← e2] at this
      exact gapfree_vis this
  case ichimokuB w2 w3 vis =>
    obtain ⟨_, _, _, _, _, _, _, _, _, d⟩ := ichimoku_formula n h l hx.1 hx.1 hx.2 true
    rw [← Except.ok.inj ho]
    cases vis with
    | false => exact d.allNum
    | true => exact gapfree_vis (def_mid n h l hx.2 (Nat.zero_le _))
  case bbMavg w d =>
    obtain ⟨d, rfl⟩ := hx.2
    rw [← Except.ok.inj ho]
    exact (bollinger_formula (n := n) c hx.1 d true).mavg.allNum
  case bbHband w d =>
    obtain ⟨d, rfl⟩ := hx.2
    rw [← Except.ok.inj ho]
    exact (bollinger_formula (n := n) c hx.1 d true).hband.allNum
  case bbLband w d =>
    obtain ⟨d, rfl⟩ := hx.2
    rw [← Except.ok.inj ho]
    exact (bollinger_formula (n := n) c hx.1 d true).lband.allNum
  case kcMband w wa o m =>
    obtain rfl : o = true := hc
    obtain ⟨q, hq, rfl⟩ := except_map_ok ho
    exact (keltner_original_formula hx.1 hq).mband.allNum
  case kcHband w wa o m =>
    obtain rfl : o = true := hc
    obtain ⟨q, hq, rfl⟩ := except_map_ok ho
    exact (keltner_original_formula hx.1 hq).hband.allNum
  case kcLband w wa o m =>
    obtain rfl : o = true := hc
    obtain ⟨q, hq, rfl⟩ := except_map_ok ho
    exact (keltner_original_formula hx.1 hq).lband.allNum
  case dcHband w off =>
    obtain rfl : off = 0 := hc
    obtain ⟨q, hq, rfl⟩ := except_map_ok ho
    obtain ⟨_, _, _, _, d, _⟩ := donchian_formula hx hq
    exact d.allNum
  case dcLband w off =>
    obtain rfl : off = 0 := hc
    obtain ⟨q, hq, rfl⟩ := except_map_ok ho
    obtain ⟨_, _, _, _, _, d, _⟩ := donchian_formula hx hq
    exact d.allNum
  case dcMband w off =>
    obtain rfl : off = 0 := hc
    obtain ⟨q, hq, rfl⟩ := except_map_ok ho
    obtain ⟨_, _, _, _, _, _, d, _⟩ := donchian_formula hx hq
    exact d.allNum
  case cr =>
    unfold cumulativeReturn at ho
    split_ifs at ho with h0
    rw [← Except.ok.inj ho]
    have hn0 : 0 < n := by
      have : (ser n c).length = n := by simp [ser]
      omega
    refine Def.allNum (n := n) (Def.fill ?_ _ _) (f := fun i => 100 * (c i / c 0 - 1))
    have e0 : ix (ser n c) 0 = .fin (c 0) := (def_ser n c).val 0 hn0 (le_refl _)
    have := (((def_ser n c).divc (c0 0)).subc 1).mulc 100
    unfold CR.run
    rw [e0, lit_fin, lit_fin]
    push_cast
    exact this.congr fun i _ _ => by ring

/-! ### the pipeline -/

theorem sane_volume (vec : Bool) : ∀ p ∈ (volumeF vec : List (String × Ind (Val ℝ))), p.2.Sane ∧ p.2.complete := by
  cases vec <;> simp [volumeF, Ind.Sane, Ind.complete]

theorem sane_volatility (vec : Bool) : ∀ p ∈ (volatilityF vec : List (String × Ind (Val ℝ))), p.2.Sane ∧ p.2.complete := by
  cases vec <;> simp [volatilityF, Ind.Sane, Ind.complete]

theorem sane_momentum (vec : Bool) : ∀ p ∈ (momentumF vec : List (String × Ind (Val ℝ))), p.2.Sane ∧ p.2.complete := by
  cases vec <;> simp [momentumF, Ind.Sane, Ind.complete] <;> norm_num

theorem sane_others : ∀ p ∈ (othersF : List (String × Ind (Val ℝ))), p.2.Sane ∧ p.2.complete := by
  simp [othersF, Ind.Sane, Ind.complete]

theorem sane_trend : ∀ p ∈ (trendF true : List (String × Ind (Val ℝ))), p.2.Sane ∧ p.2.complete := by simp [trendF, Ind.Sane, Ind.complete]

theorem sane_trend_loops : ∀ p ∈ ((trendF false).drop 21 : List (String × Ind (Val ℝ))), p.2.Sane ∧
    (p.2.complete ∨ (p.1 = "trend_psar_up" ∧ ∃ s m, p.2 = .psarUp s m) ∨ (p.1 = "trend_psar_down" ∧ ∃ s m, p.2 = .psarDown s m)) := by
  have P : ∃ x y : ℝ, (lit (1/50) : Val ℝ) = .fin x ∧ (lit (1/5) : Val ℝ) = .fin y := ⟨_, _, rfl, rfl⟩
  have C : ∃ x : ℝ, (lit (3/200) : Val ℝ) = .fin x ∧ x ≠ 0 := ⟨_, rfl, by norm_num⟩
  have w : ∀ n : Nat, 1 ≤ n + 1 := fun n => by omega
  simp only [trendF, Bool.false_eq_true, if_false, List.cons_append, List.nil_append, List.drop_succ_cons, List.drop_zero,
    List.forall_mem_cons]
  exact ⟨⟨w 13, .inl trivial⟩, ⟨w 13, .inl trivial⟩, ⟨w 13, .inl trivial⟩, ⟨⟨w 19, C⟩, .inl trivial⟩, ⟨⟨w 8, w 25⟩, .inl trivial⟩,
    ⟨⟨w 25, w 51⟩, .inl trivial⟩, ⟨w 24, .inl trivial⟩, ⟨w 24, .inl trivial⟩, ⟨w 24, .inl trivial⟩, ⟨P, .inr (.inl ⟨trivial, _, _, rfl⟩)⟩,
    ⟨P, .inr (.inr ⟨trivial, _, _, rfl⟩)⟩, ⟨P, .inl trivial⟩, ⟨P, .inl trivial⟩, by simp⟩

theorem features_sane (vec : Bool) : ∀ p ∈ (allF vec : List (String × Ind (Val ℝ))), p.2.Sane ∧
    (p.2.complete ∨ (p.1 = "trend_psar_up" ∧ ∃ s m, p.2 = .psarUp s m) ∨ (p.1 = "trend_psar_down" ∧ ∃ s m, p.2 = .psarDown s m)) := by
  have tr : ∀ p ∈ (trendF vec : List (String × Ind (Val ℝ))), p.2.Sane ∧
      (p.2.complete ∨ (p.1 = "trend_psar_up" ∧ ∃ s m, p.2 = .psarUp s m) ∨ (p.1 = "trend_psar_down" ∧ ∃ s m, p.2 = .psarDown s m)) := by
    intro p hp
    cases vec with
    | true => exact ⟨(sane_trend p hp).1, .inl (sane_trend p hp).2⟩
    | false =>
      rw [show trendF false = (trendF true : List (String × Ind (Val ℝ))) ++ (trendF false).drop 21 from rfl, List.mem_append] at hp
      rcases hp with hp | hp
      · exact ⟨(sane_trend p hp).1, .inl (sane_trend p hp).2⟩
      · exact sane_trend_loops p hp
  intro p hp
  simp only [allF, List.mem_append] at hp
  rcases hp with (((hp | hp) | hp) | hp) | hp
  · exact ⟨(sane_volume vec p hp).1, .inl (sane_volume vec p hp).2⟩
  · exact ⟨(sane_volatility vec p hp).1, .inl (sane_volatility vec p hp).2⟩
  · exact tr p hp
  · exact ⟨(sane_momentum vec p hp).1, .inl (sane_momentum vec p hp).2⟩
  · exact ⟨(sane_others p hp).1, .inl (sane_others p hp).2⟩

theorem evalAt_rows {F : Type} [FltFn F] (x : Ind F) (hx : ∀ s m, x ≠ .psar s m) (idx : Idx) (fillna : Bool) (b : List (Bar F)) {out : Series F}
    (ho : x.evalAt idx fillna b = .ok out) : out.length = b.length := by
  have len : (closes b).length = b.length := by simp
  have key : ∀ {s m : F} {o : PSAR F}, PSAR.new (highs b) (lows b) (closes b) idx s m fillna = .ok o →
      o.up.length = b.length ∧ o.down.length = b.length := fun {s m o} h => by
    unfold PSAR.new at h
    split_ifs at h
    obtain rfl := Except.ok.inj h
    rw [← len]
    exact PSAR.run_len _ _ _ _ _ _
  by_cases he : x.evalAt idx fillna b = x.eval fillna b
  · exact row_for_row x fillna b out (he.symm.trans ho)
  cases x
  case psar s m => exact absurd rfl (hx s m)
  case psarUp s m =>
    obtain ⟨o, h, rfl⟩ := except_map_ok ho
    simpa [PSAR.psarUp] using (key h).1
  case psarDown s m =>
    obtain ⟨o, h, rfl⟩ := except_map_ok ho
    simpa [PSAR.psarDown] using (key h).2
  case psarUpInd s m =>
    obtain ⟨o, h, rfl⟩ := except_map_ok ho
    simpa [PSAR.psarUpIndicator, PSAR.flag] using (key h).1
  case psarDownInd s m =>
    obtain ⟨o, h, rfl⟩ := except_map_ok ho
    simpa [PSAR.psarDownIndicator, PSAR.flag] using (key h).1
  all_goals exact absurd rfl he

theorem all_ok {F : Type} [FltFn F] : ∀ {L : List (String × Except PyErr (Series F))}, firstErr L = none → ∀ p ∈ L, ∃ s, p.2 = .ok s
  | [], _, p, hp => by simp at hp
  | (_, .error _) :: _, h, _, _ => by simp [firstErr] at h
  | (_, .ok s) :: rest, h, p, hp => by
    rcases List.mem_cons.mp hp with rfl | hp
    · exact ⟨s, rfl⟩
    · exact all_ok (L := rest) h p hp

theorem PSAR.new_fillna {F : Type} [FltFn F] {h l c : Series F} {idx : Idx} {s m : F} {fillna : Bool} {o : PSAR F}
    (ho : PSAR.new h l c idx s m fillna = .ok o) : o.fillna = fillna := by
  unfold PSAR.new at ho
  split_ifs at ho
  rw [← Except.ok.inj ho]

/-- C89. The README pipeline on any table: `dropna`, then `add_all_ta_features(…, fillna=True)`. Suppose the four price and volume columns are
numeric and do not contain `-inf` (which `dropna` lets through), and no generated name is one of theirs. Then the call succeeds exactly if
`dropna` leaves 28 rows (1 with `vectorized=True`), and in that case every generated column has one row per remaining row, and a number in
each — except that `trend_psar_up` or `trend_psar_down` may be empty throughout. The remaining cells of the other columns are unchanged,
and in the four columns there is no NaN, no infinity and no 0. -/
theorem readme_pipeline (t : Table (Val ℝ)) (hr : t.Rect) {high low close volume : String} {H L C V : Series (Val ℝ)}
    (hH : t.cols.lookup high = some (.num H)) (hL : t.cols.lookup low = some (.num L)) (hC : t.cols.lookup close = some (.num C))
    (hV : t.cols.lookup volume = some (.num V)) (hinf : ∀ s ∈ [H, L, C, V], .ninf ∉ s) (open_ pfx : String) (vec : Bool)
    (hc : Fn.all.NoClash (Val ℝ) high low close volume pfx vec) (key : Option (String → Int)) :
    let t' := dropna t
    let r := addAllTaFeatures (t'.frame key) open_ high low close volume true pfx vec
    (r.2 = none ↔ (if vec then 1 else 28) ≤ t'.labels.length) ∧
    (r.2 = none →
      (∀ p ∈ (allF vec : List (String × Ind (Val ℝ))), ∃ s, r.1.get (pfx ++ p.1) = .ok s ∧ s.length = t'.labels.length ∧
        ((∀ x ∈ s, Num x) ∨ ((p.1 = "trend_psar_up" ∨ p.1 = "trend_psar_down") ∧ ∀ x ∈ s, x = .nan))) ∧
      (∀ m s, t'.cols.lookup m = some (.num s) → (∀ p ∈ (allF vec : List (String × Ind (Val ℝ))), m ≠ pfx ++ p.1) → r.1.get m = .ok s) ∧
      ∀ m ∈ [high, low, close, volume], ∃ s, r.1.get m = .ok s ∧ s.length = t'.labels.length ∧ ∀ x ∈ s, ∃ q : ℝ, x = .fin q ∧ q ≠ 0) := by
  classical
  intro t' r
  obtain ⟨R, hR, hd⟩ : ∃ R : List Nat, (∀ i ∈ R, i < t.labels.length ∧ GoodRow t i) ∧ t' = t.pick R := by
    refine ⟨_, ?_, dropna_spec t hr⟩
    intro i hi
    rw [List.mem_filter, List.mem_range, decide_eq_true_iff] at hi
    exact hi
  have hlen : t'.labels.length = R.length := by rw [hd]; simp [Table.pick]
  have hget : ∀ {m s}, t.cols.lookup m = some (.num s) → (t'.frame key).get m = .ok (R.map (ix s)) := fun {m s} h => by
    have h1 : t'.cols.lookup m = some (.num (R.map (ix s))) := by rw [hd]; exact lookup_pick R h
    exact get_frame key h1
  have hgood : ∀ {m s}, t.cols.lookup m = some (.num s) → .ninf ∉ s → ∀ i ∈ R, ∃ q : ℝ, ix s i = .fin q ∧ q ≠ 0 := fun {m s} h hs i hi => by
    have hm : (m, Col.num s) ∈ t.cols := mem_of_lookup h
    have h1 := (hR i hi).2 _ hm
    have h2 := hr _ hm
    simp only at h1 h2
    rcases h1 with h1 | ⟨q, h1, h3, _⟩
    · exfalso
      have : i < s.length := by rw [h2]; exact (hR i hi).1
      rw [ix_lt this] at h1
      exact hs (h1 ▸ List.getElem_mem this)
    · exact ⟨q, h1, h3⟩
  let b : List (Bar (Val ℝ)) := R.map fun i => ⟨ix H i, ix L i, ix C i, ix V i⟩
  have hbl : b.length = R.length := by simp [b]
  have nH := hgood hH (hinf H (by simp))
  have nL := hgood hL (hinf L (by simp))
  have nC := hgood hC (hinf C (by simp))
  have nV := hgood hV (hinf V (by simp))
  have hreads : Fn.all.Reads (t'.frame key) high low close volume b := by
    simp only [Fn.Reads, Fn.inputs, List.forall_mem_cons, List.not_mem_nil, false_imp_iff, implies_true, and_true]
    refine ⟨?_, ?_, ?_, ?_⟩
    · rw [hget hH]; simp [b]
    · rw [hget hL]; simp [b]
    · rw [hget hC]; simp [b]
    · rw [hget hV]; simp [b]
  have hfin : ∀ x ∈ b, FinBar x := by
    intro x hx
    obtain ⟨i, hi, rfl⟩ := List.mem_map.mp hx
    obtain ⟨h, e1, _⟩ := nH i hi
    obtain ⟨l, e2, _⟩ := nL i hi
    obtain ⟨c, e3, e0⟩ := nC i hi
    obtain ⟨v, e4, _⟩ := nV i hi
    exact ⟨h, l, c, v, by rw [e1, e2, e3, e4], e0⟩
  refine ⟨by rw [hlen, ← hbl]; exact all_succeeds_iff hreads hc, fun hok => ⟨fun p hp => ?_, fun m s hm hn => ?_, ?_⟩⟩
  · have hv := wrapper_values Fn.all (open_ := open_) (fillna := true) hreads hc hok p hp
    obtain ⟨hs, hcm⟩ := features_sane vec p hp
    have hpsar : ∀ s m, p.2 ≠ .psar s m := by
      intro s m he
      rw [he] at hcm
      rcases hcm with hcm | ⟨_, _, _, e⟩ | ⟨_, _, _, e⟩
      · exact hcm
      · cases e
      · cases e
    obtain ⟨s, hs'⟩ : ∃ s, p.2.evalAt (t'.frame key).idx true b = .ok s := by
      have h0 : r = assignAll pfx (entries (t'.frame key).idx true b (allF vec)) (t'.frame key) := call_eq Fn.all (open_ := open_) hreads hc
      rw [h0, assignAll_err] at hok
      exact all_ok hok _ (List.mem_map.mpr ⟨p, hp, rfl⟩)
    refine ⟨s, hv.trans hs', by rw [hlen, ← hbl]; exact evalAt_rows p.2 hpsar _ true b hs', ?_⟩
    rcases hcm with hcm | ⟨nm, st, mx, e⟩ | ⟨nm, st, mx, e⟩
    · exact .inl (clean_gapfree p.2 hs hcm _ hfin hs')
    · rw [e] at hs'
      obtain ⟨o, ho, rfl⟩ := except_map_ok hs'
      have hfl : o.fillna = true := PSAR.new_fillna ho
      have : o.psarUp = checkFillna true .back o.up := by rw [PSAR.psarUp, hfl]
      rw [this]
      rcases aon_back o.up with h | h
      · exact .inl h
      · exact .inr ⟨.inl nm, h⟩
    · rw [e] at hs'
      obtain ⟨o, ho, rfl⟩ := except_map_ok hs'
      have hfl : o.fillna = true := PSAR.new_fillna ho
      have : o.psarDown = checkFillna true .back o.down := by rw [PSAR.psarDown, hfl]
      rw [this]
      rcases aon_back o.down with h | h
      · exact .inl h
      · exact .inr ⟨.inr nm, h⟩
  · have := wrapper_get Fn.all (t'.frame key) open_ high low close volume pfx true vec m hn
    refine this.trans ?_
    exact get_frame key hm
  · have one : ∀ {m s}, t.cols.lookup m = some (.num s) → .ninf ∉ s → (∀ p ∈ (allF vec : List (String × Ind (Val ℝ))), m ≠ pfx ++ p.1) →
        ∃ s, r.1.get m = .ok s ∧ s.length = t'.labels.length ∧ ∀ x ∈ s, ∃ q : ℝ, x = .fin q ∧ q ≠ 0 := fun {m s} h hs hn => by
      refine ⟨R.map (ix s), (wrapper_get Fn.all (t'.frame key) open_ high low close volume pfx true vec m hn).trans (hget h), by rw [hlen]; simp, ?_⟩
      intro x hx
      obtain ⟨i, hi, rfl⟩ := List.mem_map.mp hx
      exact hgood h hs i hi
    simp only [List.forall_mem_cons, List.not_mem_nil, false_imp_iff, implies_true, and_true]
    refine ⟨one hH (hinf H (by simp)) ?_, one hL (hinf L (by simp)) ?_, one hC (hinf C (by simp)) ?_, one hV (hinf V (by simp)) ?_⟩
    · exact fun p hp => hc p hp (high, (·.high)) (by simp [Fn.inputs])
    · exact fun p hp => hc p hp (low, (·.low)) (by simp [Fn.inputs])
    · exact fun p hp => hc p hp (close, (·.close)) (by simp [Fn.inputs])
    · exact fun p hp => hc p hp (volume, (·.volume)) (by simp [Fn.inputs])

/-! ### the two exceptions are real -/

/-- C89. While the bars rise without overlapping (rows labelled 0, 1, …, or by dates), `trend_psar_down` of
`add_all_ta_features(…, fillna=True)` is NaN on every row. -/
theorem psar_down_stays_empty {n : Nat} {h l c : Nat → ℝ} (hr : Rising h l c) (hgap : ∀ i, h i ≤ l (i + 1)) {df : Frame (Val ℝ)}
    (hidx : df.idx = .positional ∨ df.idx = .range n) {b : List (Bar (Val ℝ))} (e1 : highs b = ser n h) (e2 : lows b = ser n l)
    (e3 : closes b = ser n c) {open_ high low close volume pfx : String} (hreads : Fn.all.Reads df high low close volume b)
    (hc : Fn.all.NoClash (Val ℝ) high low close volume pfx false) (hn : 28 ≤ n) :
    (addAllTaFeatures df open_ high low close volume true pfx false).1.get (pfx ++ "trend_psar_down") = .ok (List.replicate n .nan) := by
  have hl : (ser n c).length = n := (def_ser n c).len
  have hbl : b.length = n := by rw [← hl, ← e3]; simp
  have hok : (addAllTaFeatures df open_ high low close volume true pfx false).2 = none :=
    (all_succeeds_iff hreads hc).mpr (by rw [hbl]; simpa using hn)
  have hv := wrapper_values Fn.all (open_ := open_) (fillna := true) hreads hc hok
    ("trend_psar_down", .psarDown (lit (1/50)) (lit (1/5))) (by simp [Fn.features, allF, trendF])
  refine hv.trans ?_
  have e0 : ∀ f, (PSAR.new (highs b) (lows b) (closes b) df.idx (lit (1/50)) (lit (1/5)) f : Except PyErr (PSAR (Val ℝ)))
      = PSAR.new (ser n h) (ser n l) (ser n c) .positional (.fin (1/50)) (.fin (1/5)) f := fun f => by
    rw [e1, e2, e3, lit_fin, lit_fin]
    push_cast
    rcases hidx with e | e
    · rw [e]
    · rw [e]
      have := psar_index_range (ser n h) (ser n l) (ser n c) (.fin (1/50)) (.fin (1/5)) f
      rwa [hl] at this
  show (PSAR.new _ _ _ _ _ _ _).map _ = _
  rw [e0]
  have hne : ¬ (ser n c).length = 0 := by omega
  obtain ⟨o, ho⟩ : ∃ o, PSAR.new (ser n h) (ser n l) (ser n c) .positional (.fin (1/50)) (.fin (1/5)) = .ok o := by
    unfold PSAR.new
    rw [if_neg hne]
    exact ⟨_, rfl⟩
  have hd : ∀ i, i < n → ix o.psarDown i = .nan := fun i hi => by
    by_cases h2 : 2 ≤ i
    · exact (psar_rising hr hgap (by norm_num) (by norm_num) (by norm_num) (by norm_num) ho h2 hi).2
    · rw [(psar_rows ho).2.2.2 i hi, if_neg (fun g => h2 g.1)]
  have hdl := (psar_rows ho).2.2.1
  unfold PSAR.new at ho ⊢
  rw [if_neg hne] at ho ⊢
  obtain rfl := Except.ok.inj ho
  show Except.ok (checkFillna true .back _) = _
  congr 1
  refine series_ext (by simpa [PSAR.psarDown] using hdl) fun i hi => ?_
  have hi : i < n := by rw [← hdl]; simpa [PSAR.psarDown] using hi
  rw [checkFillna_back_none (by rw [← hdl] at hi; simpa [PSAR.psarDown] using hi) fun k hk => ?_, ix_lt (by simpa using hi)]
  · simp
  · have := hd k (by rw [← hdl]; simpa [PSAR.psarDown] using hk)
    intro g
    have g : Num (Val.nan : Val ℝ) := this ▸ g
    exact absurd g.1 (by decide)

/-- the hypotheses can be met: bars rising by 2 -/
example : Rising (fun i => 2 * (i : ℝ) + 3) (fun i => 2 * (i : ℝ) + 1) (fun i => 2 * (i : ℝ) + 2) ∧
    ∀ i : Nat, 2 * (i : ℝ) + 3 ≤ 2 * ((i + 1 : Nat) : ℝ) + 1 := by
  refine ⟨⟨?_, ?_, ?_, fun i => ⟨?_, ?_, ?_⟩, fun i => ?_⟩, ?_⟩
  all_goals intros; push_cast
  all_goals linarith

section labels
deriving instance DecidableEq for Col
attribute [local instance] toyFn

/-- 29 rows numbered from 0; the volume of row 0 is 0 -/
def rawT : Table (Val ℚ) :=
  { labels := ["0", "1", "2", "3", "4", "5", "6", "7", "8", "9", "10", "11", "12", "13", "14", "15", "16", "17", "18", "19", "20", "21", "22", "23", "24", "25", "26", "27", "28"],
    cols := [("High", .num (qs [5, 10, 12, 11, 9, 9, 9, 9, 9, 9, 9, 9, 9, 9, 9, 9, 9, 9, 9, 9, 9, 9, 9, 9, 9, 9, 9, 9, 9])), ("Low", .num (qs [4, 8, 9, 9, 7, 7, 7, 7, 7, 7, 7, 7, 7, 7, 7, 7, 7, 7, 7, 7, 7, 7, 7, 7, 7, 7, 7, 7, 7])),
             ("Close", .num (qs [5, 9, 11, 10, 8, 8, 8, 8, 8, 8, 8, 8, 8, 8, 8, 8, 8, 8, 8, 8, 8, 8, 8, 8, 8, 8, 8, 8, 8])), ("Volume", .num (.fin 0 :: List.replicate 28 (.fin 1)))] }

/-- the bars `dropna` leaves -/
def rawB : List (Bar (Val ℚ)) := [qbar 10 8 9 1, qbar 12 9 11 1, qbar 11 9 10 1] ++ List.replicate 25 (qbar 9 7 8 1)

/-- the integer in the label -/
def rowKey (s : String) : Int := ((List.range 29).map fun i => (toString i, (i : Int))).lookup s |>.getD 0

/-- C89. The README pipeline on such a table: `dropna` removes row 0, the labels of the remaining rows are 1 to 28, and row 3 of
`trend_psar_down` is another one than with the same rows labelled by dates. -/
theorem pipeline_labels_matter :
    let df := fun key => (dropna rawT).frame key
    (∀ key, (addAllTaFeatures (df key) "Open" "High" "Low" "Close" "Volume" true).2 = none) ∧
    ((addAllTaFeatures (df none) "Open" "High" "Low" "Close" "Volume" true).1.get "trend_psar_down").map (ix · 3) = .ok (.fin 12) ∧
    ((addAllTaFeatures (df (some rowKey)) "Open" "High" "Low" "Close" "Volume" true).1.get "trend_psar_down").map (ix · 3)
      = .ok (.fin (499 / 50)) := by
  intro df
  have hcols : (dropna rawT).cols = [("High", .num (highs rawB)), ("Low", .num (lows rawB)), ("Close", .num (closes rawB)),
      ("Volume", .num (volumes rawB))] := by decide +kernel
  have hreads : ∀ key, Fn.all.Reads (df key) "High" "Low" "Close" "Volume" rawB := fun key => by
    simp only [Fn.Reads, Fn.inputs, List.forall_mem_cons, List.not_mem_nil, false_imp_iff, implies_true, and_true]
    refine ⟨get_frame key ?_, get_frame key ?_, get_frame key ?_, get_frame key ?_⟩ <;> rw [hcols] <;> rfl
  have hc : Fn.all.NoClash (Val ℚ) "High" "Low" "Close" "Volume" "" false := by
    have : ∀ n ∈ names (Fn.all.features (F := Val ℚ) false), ∀ c ∈ ["High", "Low", "Close", "Volume"], c ≠ "" ++ n := by decide +kernel
    intro p hp m hm
    exact this p.1 (List.mem_map_of_mem hp) m.1 (List.mem_map_of_mem (f := (·.1)) hm)
  have hok : ∀ key, (addAllTaFeatures (df key) "Open" "High" "Low" "Close" "Volume" true).2 = none := fun key =>
    (all_succeeds_iff (hreads key) hc).mpr (by decide)
  have hv := fun key => wrapper_values Fn.all (open_ := "Open") (fillna := true) (hreads key) hc (hok key)
    ("trend_psar_down", .psarDown (lit (1/50)) (lit (1/5))) (by simp [Fn.features, allF, trendF])
  refine ⟨hok, ?_, ?_⟩
  · rw [show (addAllTaFeatures (df none) "Open" "High" "Low" "Close" "Volume" true).1.get "trend_psar_down" = _ from hv none]
    decide +kernel
  · rw [show (addAllTaFeatures (df (some rowKey)) "Open" "High" "Low" "Close" "Volume" true).1.get "trend_psar_down" = _ from hv (some rowKey)]
    decide +kernel

end labels

end TA
