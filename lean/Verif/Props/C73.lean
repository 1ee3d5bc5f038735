import Verif.Lemmas.Fade
import Verif.Lemmas.NewEq
import Verif.Props.C51

/-!
# C73: fading memory

Outputs built from exponential averages never quite forget, but the weight of old data dies out: two runs whose last rows are the same
come as close as one likes, after a number of rows that does not depend on the data but only on its range.
-/

set_option linter.unusedSectionVars false

namespace TA

/-- a bar of numbers with `lo ≤ low ≤ close ≤ high ≤ hi`, `low + g ≤ high` and volume in `[vlo, vhi]` -/
def BarIn (lo hi g vlo vhi : ℝ) (r : Bar (Val ℝ)) : Prop :=
  ∃ h l c v : ℝ, r = ⟨.fin h, .fin l, .fin c, .fin v⟩ ∧ lo ≤ l ∧ l ≤ c ∧ c ≤ h ∧ h ≤ hi ∧ l + g ≤ h ∧ vlo ≤ v ∧ v ≤ vhi

/-- Fading memory on such bars: for every `ε` there is a number of rows `N` after which it makes less than `ε` of a difference which
data, and how much of it, came before. -/
def FadingMemory (lo hi g vlo vhi : ℝ) (f : List (Bar (Val ℝ)) → Except PyErr (Series (Val ℝ))) : Prop :=
  ∀ ε : ℝ, 0 < ε → ∃ N : Nat, ∀ old recent : List (Bar (Val ℝ)), (∀ r ∈ old ++ recent, BarIn lo hi g vlo vhi r) →
    N < recent.length → ∃ out out', f recent = .ok out ∧ f (old ++ recent) = .ok out' ∧
      ∀ i, N ≤ i → i < recent.length → ∃ x y : ℝ, ix out i = .fin x ∧ ix out' (old.length + i) = .fin y ∧ |x - y| < ε

/-- the same, provided that both runs return -/
def FadingRuns (lo hi g vlo vhi : ℝ) (f : List (Bar (Val ℝ)) → Except PyErr (Series (Val ℝ))) : Prop :=
  ∀ ε : ℝ, 0 < ε → ∃ N : Nat, ∀ old recent : List (Bar (Val ℝ)), (∀ r ∈ old ++ recent, BarIn lo hi g vlo vhi r) →
    ∀ out out', f recent = .ok out → f (old ++ recent) = .ok out' → ∀ i, N ≤ i → i < recent.length →
      ∃ x y : ℝ, ix out i = .fin x ∧ ix out' (old.length + i) = .fin y ∧ |x - y| < ε

theorem FadingRuns.memory {lo hi g vlo vhi : ℝ} {f : List (Bar (Val ℝ)) → Except PyErr (Series (Val ℝ))}
    (h : FadingRuns lo hi g vlo vhi f) (m : Nat) (hok : ∀ b : List (Bar (Val ℝ)), m < b.length → ∃ out, f b = .ok out) :
    FadingMemory lo hi g vlo vhi f := by
  intro ε hε
  obtain ⟨N, hN⟩ := h ε hε
  refine ⟨max N m, fun old recent hb hr => ?_⟩
  obtain ⟨o1, h1⟩ := hok recent (by omega)
  obtain ⟨o2, h2⟩ := hok (old ++ recent) (by rw [List.length_append]; omega)
  exact ⟨o1, o2, h1, h2, fun i hi hi' => hN old recent hb o1 o2 h1 h2 i (by omega) hi'⟩

/-! ## from functions to lists -/

/-- a list of such bars, as functions -/
theorem bars_hist {lo hi g vlo vhi : ℝ} {b : List (Bar (Val ℝ))} (hb : ∀ r ∈ b, BarIn lo hi g vlo vhi r) (hne : b ≠ []) (k : Nat) :
    ∃ d : Hist, d.k = k ∧ d.In lo hi g vlo vhi ∧ b = barsOf b.length d.h d.l d.c d.v := by
  have hpos : 0 < b.length := List.length_pos_of_ne_nil hne
  have key : ∀ i, ∃ t : ℝ × ℝ × ℝ × ℝ, (∀ hi' : i < b.length, b[i] = ⟨.fin t.1, .fin t.2.1, .fin t.2.2.1, .fin t.2.2.2⟩) ∧
      lo ≤ t.2.1 ∧ t.2.1 ≤ t.2.2.1 ∧ t.2.2.1 ≤ t.1 ∧ t.1 ≤ hi ∧ t.2.1 + g ≤ t.1 ∧ vlo ≤ t.2.2.2 ∧ t.2.2.2 ≤ vhi := by
    intro i
    by_cases h : i < b.length
    · obtain ⟨x, y, z, v, e, hr⟩ := hb b[i] (List.getElem_mem h)
      exact ⟨(x, y, z, v), fun _ => e, hr⟩
    · obtain ⟨x, y, z, v, e, hr⟩ := hb b[0] (List.getElem_mem hpos)
      exact ⟨(x, y, z, v), fun h' => absurd h' h, hr⟩
  choose t ht hr using key
  refine ⟨⟨k, fun i => (t i).1, fun i => (t i).2.1, fun i => (t i).2.2.1, fun i => (t i).2.2.2⟩, rfl,
    ⟨fun i => (hr i).1, fun i => (hr i).2.1, fun i => (hr i).2.2.1, fun i => (hr i).2.2.2.1, fun i => (hr i).2.2.2.2.1,
      fun i => (hr i).2.2.2.2.2.1, fun i => (hr i).2.2.2.2.2.2⟩, ?_⟩
  apply List.ext_getElem
  · simp [barsOf]
  · intro i h1 h2
    rw [ht i h1]
    simp [barsOf, tab]

/-- the output on `barsOf n h l c v` is `F h l c v` from row `p` on -/
def Shows (lo hi g vlo vhi : ℝ) (f : List (Bar (Val ℝ)) → Except PyErr (Series (Val ℝ))) (p : Nat)
    (F : (Nat → ℝ) → (Nat → ℝ) → (Nat → ℝ) → (Nat → ℝ) → Nat → ℝ) : Prop :=
  ∀ n (d : Hist), d.In lo hi g vlo vhi → ∀ out, f (barsOf n d.h d.l d.c d.v) = .ok out →
    ∀ i, i < n → p ≤ i → ix out i = .fin (F d.h d.l d.c d.v i)

variable {lo hi g vlo vhi : ℝ} {f : List (Bar (Val ℝ)) → Except PyErr (Series (Val ℝ))} {p : Nat}
  {F : (Nat → ℝ) → (Nat → ℝ) → (Nat → ℝ) → (Nat → ℝ) → Nat → ℝ}

theorem fading_of (hs : Shows lo hi g vlo vhi f p F)
    (hF : Fade (Hist.In lo hi g vlo vhi) p
      (fun d => F (fun j => d.h (d.k + j)) (fun j => d.l (d.k + j)) (fun j => d.c (d.k + j)) (fun j => d.v (d.k + j)))
      (fun d => F d.h d.l d.c d.v)) : FadingRuns lo hi g vlo vhi f := by
  intro ε hε
  obtain ⟨N, hN⟩ := hF.lim ε hε
  refine ⟨max N p, fun old recent hb out out' h1 h2 i hi hr => ?_⟩
  have hne : old ++ recent ≠ [] := by
    intro h
    have := congrArg List.length h
    simp at this
    rw [this.2] at hr
    simp at hr
  obtain ⟨d, hk, hd, e⟩ := bars_hist hb hne old.length
  rw [List.length_append, barsOf_append] at e
  obtain ⟨e1, e2⟩ := List.append_inj e (by simp [barsOf])
  refine ⟨_, _, ?_, ?_, hN d hd i (by omega)⟩
  · refine hs recent.length ⟨0, fun j => d.h (d.k + j), fun j => d.l (d.k + j), fun j => d.c (d.k + j), fun j => d.v (d.k + j)⟩
      ⟨fun i => hd.lo _, fun i => hd.lc _, fun i => hd.ch _, fun i => hd.hi _, fun i => hd.gap _, fun i => hd.vlo _, fun i => hd.vhi _⟩ out ?_ i hr (by omega)
    dsimp only
    rw [hk, ← e2]
    exact h1
  · rw [hk]
    refine hs (old.length + recent.length) d hd out' ?_ _ (by omega) (by omega)
    rw [barsOf_append, ← e1, ← e2]
    exact h2

/-! ## the ingredients -/

theorem fade_c : Fade (Hist.In lo hi g vlo vhi) 0 (fun d i => d.c (d.k + i)) (fun d => d.c) :=
  Fade.col (lo := lo) (hi := hi) fun _ h i => ⟨(h.lo i).trans (h.lc i), (h.ch i).trans (h.hi i)⟩

theorem fade_v : Fade (Hist.In lo hi g vlo vhi) 0 (fun d i => d.v (d.k + i)) (fun d => d.v) :=
  Fade.col (lo := vlo) (hi := vhi) fun _ h i => ⟨h.vlo i, h.vhi i⟩

theorem emaRec_ge {α : ℝ} (hα : 0 < α) (hα1 : α ≤ 1) {x : Nat → ℝ} {m : ℝ} (h : ∀ j, m ≤ x j) (i : Nat) : m ≤ emaRec α x i := by
  induction i with
  | zero => exact h 0
  | succ i ih =>
    rw [emaRec]
    nlinarith [h (i + 1)]

/-- true range -/
theorem fade_tr : Fade (Hist.In lo hi g vlo vhi) 0
    (fun d => tr0 (fun j => d.h (d.k + j)) (fun j => d.l (d.k + j)) (fun j => d.c (d.k + j))) (fun d => tr0 d.h d.l d.c) := by
  have key : ∀ h l c : Nat → ℝ, (∀ i, lo ≤ l i) → (∀ i, l i ≤ c i) → (∀ i, c i ≤ h i) → (∀ i, h i ≤ hi) → ∀ i,
      |tr0 h l c i| ≤ hi - lo := by
    intro h l c h1 h2 h3 h4 i
    unfold tr0
    split_ifs with e
    · rw [abs_le]
      constructor <;> linarith [h1 0, h2 0, h3 0, h4 0]
    · have a1 : max (h i) (c (i - 1)) ≤ hi := max_le (h4 i) ((h3 _).trans (h4 _))
      have a2 : lo ≤ min (l i) (c (i - 1)) := le_min (h1 i) ((h1 _).trans (h2 _))
      have a3 : h i ≤ max (h i) (c (i - 1)) := le_max_left _ _
      have a4 : min (l i) (c (i - 1)) ≤ l i := min_le_left _ _
      rw [abs_le]
      constructor <;> linarith [h1 i, h2 i, h3 i, h4 i]
  refine Fade.eventually (M := 1) (B := hi - lo) (fun d hd i _ => ⟨?_, ?_⟩) fun d hd i hi' => ?_
  · exact key _ _ _ (fun i => hd.lo _) (fun i => hd.lc _) (fun i => hd.ch _) (fun i => hd.hi _) i
  · exact key _ _ _ hd.lo hd.lc hd.ch hd.hi i
  · unfold tr0
    rw [if_neg (by omega), if_neg (by omega)]
    dsimp only
    rw [show d.k + i - 1 = d.k + (i - 1) by omega]

theorem fade_atr {w : Nat} (hw : 1 ≤ w) : Fade (Hist.In lo hi g vlo vhi) (w - 1)
    (fun d i => if i < w - 1 then 0 else wilMean (tr0 (fun j => d.h (d.k + j)) (fun j => d.l (d.k + j)) (fun j => d.c (d.k + j))) w (i - (w - 1)))
    (fun d i => if i < w - 1 then 0 else wilMean (tr0 d.h d.l d.c) w (i - (w - 1))) :=
  (fade_tr.wilder hw).congr (fun d i hi => by rw [if_neg (by omega)]) (fun d i hi => by rw [if_neg (by omega)])

theorem effRatio_mem (c : Nat → ℝ) {w i : Nat} (h : w ≤ i) : 0 ≤ effRatio c w i ∧ effRatio c w i ≤ 1 := by
  have h1 := abs_sub_le_path c i w h
  have h0 : (0 : ℝ) ≤ ∑ j ∈ Finset.Ico (i + 1 - w) (i + 1), |c j - c (j - 1)| := Finset.sum_nonneg fun _ _ => abs_nonneg _
  unfold effRatio
  split_ifs with h2
  · simp
  · have hp := lt_of_le_of_ne h0 (Ne.symm h2)
    exact ⟨div_nonneg (abs_nonneg _) h0, by rw [div_le_one hp]; exact h1⟩

theorem effRatio_shift (c : Nat → ℝ) (k : Nat) {w i : Nat} (h : w ≤ i) :
    effRatio (fun j => c (k + j)) w i = effRatio c w (k + i) := by
  have e : ∑ j ∈ Finset.Ico (k + i + 1 - w) (k + i + 1), |c j - c (j - 1)|
      = ∑ j ∈ Finset.Ico (i + 1 - w) (i + 1), |c (k + j) - c (k + (j - 1))| := by
    rw [show k + i + 1 - w = (i + 1 - w) + k by omega, show k + i + 1 = (i + 1) + k by omega, ← Finset.sum_Ico_add']
    refine Finset.sum_congr rfl fun j hj => ?_
    rw [Finset.mem_Ico] at hj
    rw [show j + k - 1 = k + (j - 1) by omega, Nat.add_comm j k]
  unfold effRatio
  rw [e, show k + i - w = k + (i - w) by omega]


theorem fade_ema_c {w : Nat} (hw : 1 ≤ w) : Fade (Hist.In lo hi g vlo vhi) 0
    (fun d => emaRec (2 / ((w : ℝ) + 1)) (fun j => d.c (d.k + j))) (fun d => emaRec (2 / ((w : ℝ) + 1)) d.c) :=
  fade_c.ema0 (span_pos w) (span_le w hw)

theorem fade_ema_v {w : Nat} (hw : 1 ≤ w) : Fade (Hist.In lo hi g vlo vhi) 0
    (fun d => emaRec (2 / ((w : ℝ) + 1)) (fun j => d.v (d.k + j))) (fun d => emaRec (2 / ((w : ℝ) + 1)) d.v) :=
  fade_v.ema0 (span_pos w) (span_le w hw)

/-! ## the outputs -/

theorem fading_ema {w : Nat} (hw : 1 ≤ w) : FadingRuns lo hi g vlo vhi (fun b => emaIndicator (closes b) w false) := by
  refine fading_of (p := w - 1) (F := fun _ _ c _ => emaRec (2 / ((w : ℝ) + 1)) c) ?_ ((fade_ema_c hw).mono (Nat.zero_le _))
  intro n d _ out ho i hi hp
  simp only [(barsOf_cols _ _ _ _ _).2.2.1] at ho
  obtain ⟨e, e0, e1, out', h1, h2⟩ := ema_recurrence n d.c w hw false
  obtain rfl := Except.ok.inj (h1.symm.trans ho)
  rw [h2.val i hi (by simpa using hp)]
  congr 1
  clear hi hp
  induction i with
  | zero => exact e0
  | succ i ih => rw [e1, ih]; rfl

/-- the MACD line -/
noncomputable def lineM (slow fast : Nat) (c : Nat → ℝ) (i : Nat) : ℝ := emaRec (2 / ((fast : ℝ) + 1)) c i - emaRec (2 / ((slow : ℝ) + 1)) c i
/-- the PPO line -/
noncomputable def lineP (slow fast : Nat) (c : Nat → ℝ) (i : Nat) : ℝ :=
  100 * (emaRec (2 / ((fast : ℝ) + 1)) c i / emaRec (2 / ((slow : ℝ) + 1)) c i - 1)
/-- the signal line of a line that starts at row `p` -/
noncomputable def sigOf (sign p : Nat) (L : Nat → ℝ) (i : Nat) : ℝ := emaRec (2 / ((sign : ℝ) + 1)) (fun j => L (p + j)) (i - p)

theorem fade_macd {slow fast sign : Nat} (h1 : 1 ≤ slow) (h2 : 1 ≤ fast) (h3 : 1 ≤ sign) :
    Fade (Hist.In lo hi g vlo vhi) (max slow fast - 1) (fun d => lineM slow fast (fun j => d.c (d.k + j))) (fun d => lineM slow fast d.c) ∧
    Fade (Hist.In lo hi g vlo vhi) (max slow fast - 1) (fun d => sigOf sign (max slow fast - 1) (lineM slow fast (fun j => d.c (d.k + j))))
      (fun d => sigOf sign (max slow fast - 1) (lineM slow fast d.c)) := by
  have hL : Fade (Hist.In lo hi g vlo vhi) (max slow fast - 1) (fun d => lineM slow fast (fun j => d.c (d.k + j))) (fun d => lineM slow fast d.c) :=
    ((fade_ema_c h2).sub (fade_ema_c h1)).mono (Nat.zero_le _)
  exact ⟨hL, hL.ema (span_pos sign) (span_le sign h3)⟩

theorem fading_macd {slow fast sign : Nat} (h1 : 1 ≤ slow) (h2 : 1 ≤ fast) (h3 : 1 ≤ sign) :
    FadingRuns lo hi g vlo vhi (fun b => (MACD.new (closes b) slow fast sign false).map (·.macd)) ∧
    FadingRuns lo hi g vlo vhi (fun b => (MACD.new (closes b) slow fast sign false).map (·.macdSignal)) ∧
    FadingRuns lo hi g vlo vhi (fun b => (MACD.new (closes b) slow fast sign false).map (·.macdDiff)) := by
  obtain ⟨hL, hS⟩ := fade_macd (lo := lo) (hi := hi) (g := g) (vlo := vlo) (vhi := vhi) h1 h2 h3
  have hq : max slow fast - 1 ≤ max slow fast + sign - 2 := by omega
  refine ⟨fading_of (F := fun _ _ c _ => lineM slow fast c) ?_ hL,
    fading_of (F := fun _ _ c _ => sigOf sign (max slow fast - 1) (lineM slow fast c)) ?_ (hS.mono hq),
    fading_of (F := fun _ _ c _ i => lineM slow fast c i - sigOf sign (max slow fast - 1) (lineM slow fast c) i) ?_ ((hL.sub hS).mono hq)⟩
  all_goals
    intro n d _ out ho i hi hp
    simp only [(barsOf_cols _ _ _ _ _).2.2.1] at ho
    obtain ⟨o, ho', rfl⟩ := except_map_ok ho
    obtain ⟨L, S, eL, eS, d1, d2, d3⟩ := macd_formula ho'
    simp only [Bool.false_eq_true, if_false] at eS d1 d2 d3
    obtain rfl := funext eL
    obtain rfl := funext eS
    first
      | exact d1.val i hi hp
      | exact d2.val i hi hp
      | exact d3.val i hi hp

/-- the same for PPO and PVO -/
theorem fade_ppo {slow fast sign : Nat} (h1 : 1 ≤ slow) (h2 : 1 ≤ fast) (h3 : 1 ≤ sign) {Dom : Hist → Prop} {a b : Hist → Nat → ℝ}
    (h : Fade Dom 0 a b) {m : ℝ} (hm : 0 < m) (hpos : ∀ d, Dom d → ∀ i, m ≤ a d i ∧ m ≤ b d i) :
    Fade Dom (max slow fast - 1) (fun d => lineP slow fast (a d)) (fun d => lineP slow fast (b d)) ∧
    Fade Dom (max slow fast - 1) (fun d => sigOf sign (max slow fast - 1) (lineP slow fast (a d)))
      (fun d => sigOf sign (max slow fast - 1) (lineP slow fast (b d))) := by
  have hL : Fade Dom (max slow fast - 1) (fun d => lineP slow fast (a d)) (fun d => lineP slow fast (b d)) := by
    refine Fade.mono ?_ (Nat.zero_le _)
    refine (((h.ema0 (span_pos fast) (span_le fast h2)).div (h.ema0 (span_pos slow) (span_le slow h1)) hm
      (fun d hd i _ => ⟨?_, ?_⟩)).addc (-1)).cmul 100
    · exact emaRec_ge (span_pos slow) (span_le slow h1) (fun j => (hpos d hd j).1) i
    · exact emaRec_ge (span_pos slow) (span_le slow h1) (fun j => (hpos d hd j).2) i
  exact ⟨hL, hL.ema (span_pos sign) (span_le sign h3)⟩

theorem fading_ppo {slow fast sign : Nat} (h1 : 1 ≤ slow) (h2 : 1 ≤ fast) (h3 : 1 ≤ sign) (hlo : 0 < lo) :
    FadingRuns lo hi g vlo vhi (fun b => (PPO.new (closes b) slow fast sign false).map (·.ppo)) ∧
    FadingRuns lo hi g vlo vhi (fun b => (PPO.new (closes b) slow fast sign false).map (·.ppoSignal)) ∧
    FadingRuns lo hi g vlo vhi (fun b => (PPO.new (closes b) slow fast sign false).map (·.ppoHist)) := by
  obtain ⟨hL, hS⟩ := fade_ppo h1 h2 h3 (fade_c (lo := lo) (hi := hi) (g := g) (vlo := vlo) (vhi := vhi)) hlo
    (fun d hd i => ⟨(hd.lo _).trans (hd.lc _), (hd.lo _).trans (hd.lc _)⟩)
  have hq : max slow fast - 1 ≤ max slow fast + sign - 2 := by omega
  refine ⟨fading_of (F := fun _ _ c _ => lineP slow fast c) ?_ hL,
    fading_of (F := fun _ _ c _ => sigOf sign (max slow fast - 1) (lineP slow fast c)) ?_ (hS.mono hq),
    fading_of (F := fun _ _ c _ i => lineP slow fast c i - sigOf sign (max slow fast - 1) (lineP slow fast c) i) ?_ ((hL.sub hS).mono hq)⟩
  all_goals
    intro n d hd out ho i hi hp
    simp only [(barsOf_cols _ _ _ _ _).2.2.1] at ho
    obtain ⟨o, ho', rfl⟩ := except_map_ok ho
    obtain ⟨L, S, eL, eS, d1, d2, d3⟩ := ppo_formula (fun i => hlo.trans_le ((hd.lo i).trans (hd.lc i))) ho'
    simp only [Bool.false_eq_true, if_false] at eS d1 d2 d3
    obtain rfl := funext eL
    obtain rfl := funext eS
    first
      | exact d1.val i hi hp
      | exact d2.val i hi hp
      | exact d3.val i hi hp

theorem fading_pvo {slow fast sign : Nat} (h1 : 1 ≤ slow) (h2 : 1 ≤ fast) (h3 : 1 ≤ sign) (hlo : 0 < vlo) :
    FadingRuns lo hi g vlo vhi (fun b => (PPO.new (volumes b) slow fast sign false).map (·.ppo)) ∧
    FadingRuns lo hi g vlo vhi (fun b => (PPO.new (volumes b) slow fast sign false).map (·.ppoSignal)) ∧
    FadingRuns lo hi g vlo vhi (fun b => (PPO.new (volumes b) slow fast sign false).map (·.ppoHist)) := by
  obtain ⟨hL, hS⟩ := fade_ppo h1 h2 h3 (fade_v (lo := lo) (hi := hi) (g := g) (vlo := vlo) (vhi := vhi)) hlo
    (fun d hd i => ⟨hd.vlo _, hd.vlo _⟩)
  have hq : max slow fast - 1 ≤ max slow fast + sign - 2 := by omega
  refine ⟨fading_of (F := fun _ _ _ v => lineP slow fast v) ?_ hL,
    fading_of (F := fun _ _ _ v => sigOf sign (max slow fast - 1) (lineP slow fast v)) ?_ (hS.mono hq),
    fading_of (F := fun _ _ _ v i => lineP slow fast v i - sigOf sign (max slow fast - 1) (lineP slow fast v) i) ?_ ((hL.sub hS).mono hq)⟩
  all_goals
    intro n d hd out ho i hi hp
    simp only [(barsOf_cols _ _ _ _ _).2.2.2] at ho
    obtain ⟨o, ho', rfl⟩ := except_map_ok ho
    obtain ⟨L, S, eL, eS, d1, d2, d3⟩ := ppo_formula (fun i => hlo.trans_le (hd.vlo i)) ho'
    simp only [Bool.false_eq_true, if_false] at eS d1 d2 d3
    obtain rfl := funext eL
    obtain rfl := funext eS
    first
      | exact d1.val i hi hp
      | exact d2.val i hi hp
      | exact d3.val i hi hp

theorem fading_atr {w : Nat} (hw : 1 ≤ w) :
    FadingRuns lo hi g vlo vhi (fun b => averageTrueRange (highs b) (lows b) (closes b) w false) := by
  refine fading_of (F := fun h l c _ i => if i < w - 1 then 0 else wilMean (tr0 h l c) w (i - (w - 1))) ?_ (fade_atr hw)
  intro n d hd out ho i hi hp
  simp only [(barsOf_cols _ _ _ _ _).2.2.1, (barsOf_cols _ _ _ _ _).1, (barsOf_cols _ _ _ _ _).2.1] at ho
  exact (atr_formula (fun i _ => (hd.lc i).trans (hd.ch i)) hw ho).2.val i hi (Nat.zero_le _)


theorem atr_ge {d : Hist} (hd : d.In lo hi g vlo vhi) {w : Nat} (hw : 1 ≤ w) (i : Nat) : g ≤ wilMean (tr0 d.h d.l d.c) w i := by
  have ub : ∀ j, ∃ B, ∀ j', j' < j → tr0 d.h d.l d.c j' ≤ B := fun j =>
    ⟨∑ t ∈ Finset.range j, |tr0 d.h d.l d.c t|, fun j' hj' => (le_abs_self _).trans
      (Finset.single_le_sum (f := fun t => |tr0 d.h d.l d.c t|) (fun _ _ => abs_nonneg _) (Finset.mem_range.mpr hj'))⟩
  obtain ⟨B, hB⟩ := ub (w + i)
  refine (wilMean_mem hw i fun j hj => ⟨?_, hB j hj⟩).1
  unfold tr0
  split_ifs with e
  · have := hd.gap 0; linarith
  · have a3 : d.h j ≤ max (d.h j) (d.c (j - 1)) := le_max_left _ _
    have a4 : min (d.l j) (d.c (j - 1)) ≤ d.l j := min_le_left _ _
    linarith [hd.gap j]

/-- the bands of the ATR version of the Keltner channel -/
theorem fading_keltner {w wa : Nat} (hw : 1 ≤ w) (hwa : 1 ≤ wa) (k : ℝ) :
    FadingRuns lo hi g vlo vhi (fun b => (Keltner.new (highs b) (lows b) (closes b) w wa false false (.fin k)).map (·.mband)) ∧
    FadingRuns lo hi g vlo vhi (fun b => (Keltner.new (highs b) (lows b) (closes b) w wa false false (.fin k)).map (·.hband)) ∧
    FadingRuns lo hi g vlo vhi (fun b => (Keltner.new (highs b) (lows b) (closes b) w wa false false (.fin k)).map (·.lband)) ∧
    (0 < lo →
      FadingRuns lo hi g vlo vhi (fun b => (Keltner.new (highs b) (lows b) (closes b) w wa false false (.fin k)).map (·.wband))) ∧
    (0 < g → 0 < k →
      FadingRuns lo hi g vlo vhi (fun b => (Keltner.new (highs b) (lows b) (closes b) w wa false false (.fin k)).map (·.pband))) := by
  have hE := (fade_ema_c (lo := lo) (hi := hi) (g := g) (vlo := vlo) (vhi := vhi) hw).mono (Nat.zero_le (max (w - 1) (wa - 1)))
  have hA := ((fade_atr (lo := lo) (hi := hi) (g := g) (vlo := vlo) (vhi := vhi) hwa).mono (le_max_right (w - 1) (wa - 1))).cmul k
  have hH := hE.add hA
  have hL := hE.sub hA
  have spec : ∀ (n : Nat) (d : Hist) (o : Keltner (Val ℝ)), d.In lo hi g vlo vhi →
      Keltner.new (ser n d.h) (ser n d.l) (ser n d.c) w wa false false (.fin k) = .ok o →
      ∃ atr : Nat → ℝ, (∀ i, i < n → atr i = if i < wa - 1 then 0 else wilMean (tr0 d.h d.l d.c) wa (i - (wa - 1))) ∧
      KeltnerSpec o n (w - 1) (w - 1) d.c
        (emaRec (2 / ((w : ℝ) + 1)) d.c) (fun i => emaRec (2 / ((w : ℝ) + 1)) d.c i + k * atr i)
        (fun i => emaRec (2 / ((w : ℝ) + 1)) d.c i - k * atr i) := by
    intro n d o hd ho
    obtain ⟨atr, ⟨out, h1, h2⟩, -, h3⟩ := keltner_atr_formula (fun i _ => (hd.lc i).trans (hd.ch i)) hw hwa ho
    refine ⟨atr, fun i hi => ?_, h3⟩
    have h4 := (atr_formula (fun i _ => (hd.lc i).trans (hd.ch i)) hwa h1).2.val i hi (Nat.zero_le _)
    rw [h2.val i hi (Nat.zero_le _)] at h4
    exact Val.fin.inj h4
  have hE0 : ∀ c : Nat → ℝ, (∀ j, lo ≤ c j) → ∀ i, lo ≤ emaRec (2 / ((w : ℝ) + 1)) c i := fun c hc i =>
    emaRec_ge (span_pos w) (span_le w hw) hc i
  refine ⟨fading_of (F := fun _ _ c _ => emaRec (2 / ((w : ℝ) + 1)) c) ?_ hE,
    fading_of (F := fun h l c _ i => emaRec (2 / ((w : ℝ) + 1)) c i +
      k * (if i < wa - 1 then 0 else wilMean (tr0 h l c) wa (i - (wa - 1)))) ?_ hH,
    fading_of (F := fun h l c _ i => emaRec (2 / ((w : ℝ) + 1)) c i -
      k * (if i < wa - 1 then 0 else wilMean (tr0 h l c) wa (i - (wa - 1)))) ?_ hL, fun hlo =>
    fading_of (p := max (w - 1) (wa - 1)) (F := fun h l c _ i => 2 * 100 * (k * (if i < wa - 1 then 0 else wilMean (tr0 h l c) wa (i - (wa - 1)))
      / emaRec (2 / ((w : ℝ) + 1)) c i)) ?_
      ((hA.div hE hlo fun d hd i _ => ⟨hE0 _ (fun j => (hd.lo _).trans (hd.lc _)) i, hE0 _ (fun j => (hd.lo _).trans (hd.lc _)) i⟩).cmul (2 * 100)),
    fun hg hk =>
    fading_of (p := max (w - 1) (wa - 1)) (F := fun h l c _ i =>
      (c i - (emaRec (2 / ((w : ℝ) + 1)) c i - k * (if i < wa - 1 then 0 else wilMean (tr0 h l c) wa (i - (wa - 1)))))
      / (2 * (k * (if i < wa - 1 then 0 else wilMean (tr0 h l c) wa (i - (wa - 1)))))) ?_
      (((fade_c.mono (Nat.zero_le _)).sub hL).div (hA.cmul 2) (m := 2 * (k * g)) (by positivity) fun d hd i hi => ⟨?_, ?_⟩)⟩
  · intro n d hd out ho i hi hp
    simp only [(barsOf_cols _ _ _ _ _).2.2.1, (barsOf_cols _ _ _ _ _).1, (barsOf_cols _ _ _ _ _).2.1] at ho
    obtain ⟨o, ho', rfl⟩ := except_map_ok ho
    obtain ⟨atr, ea, sp⟩ := spec n d o hd ho'
    exact sp.mband.val i hi (by omega)
  · intro n d hd out ho i hi hp
    simp only [(barsOf_cols _ _ _ _ _).2.2.1, (barsOf_cols _ _ _ _ _).1, (barsOf_cols _ _ _ _ _).2.1] at ho
    obtain ⟨o, ho', rfl⟩ := except_map_ok ho
    obtain ⟨atr, ea, sp⟩ := spec n d o hd ho'
    rw [sp.hband.val i hi (by omega), ea i hi]
  · intro n d hd out ho i hi hp
    simp only [(barsOf_cols _ _ _ _ _).2.2.1, (barsOf_cols _ _ _ _ _).1, (barsOf_cols _ _ _ _ _).2.1] at ho
    obtain ⟨o, ho', rfl⟩ := except_map_ok ho
    obtain ⟨atr, ea, sp⟩ := spec n d o hd ho'
    rw [sp.lband.val i hi (by omega), ea i hi]
  · intro n d hd out ho i hi hp
    simp only [(barsOf_cols _ _ _ _ _).2.2.1, (barsOf_cols _ _ _ _ _).1, (barsOf_cols _ _ _ _ _).2.1] at ho
    obtain ⟨o, ho', rfl⟩ := except_map_ok ho
    obtain ⟨atr, ea, sp⟩ := spec n d o hd ho'
    have hp := hlo.trans_le (hE0 d.c (fun j => (hd.lo _).trans (hd.lc _)) i)
    rw [sp.wband i hi (by omega) (by omega) hp.ne', ea i hi]
    congr 1
    field_simp
    ring
  · intro n d hd out ho i hi hp
    simp only [(barsOf_cols _ _ _ _ _).2.2.1, (barsOf_cols _ _ _ _ _).1, (barsOf_cols _ _ _ _ _).2.1] at ho
    obtain ⟨o, ho', rfl⟩ := except_map_ok ho
    obtain ⟨atr, ea, sp⟩ := spec n d o hd ho'
    have h1 : g ≤ atr i := by rw [ea i hi, if_neg (by omega)]; exact atr_ge hd hwa _
    have h2 : 0 < k * atr i := mul_pos hk (hg.trans_le h1)
    rw [sp.pband i hi (by omega) (by intro h; linarith), ea i hi]
    congr 2
    ring
  · have := atr_ge (d := ⟨0, fun j => d.h (d.k + j), fun j => d.l (d.k + j), fun j => d.c (d.k + j), fun j => d.v (d.k + j)⟩)
      ⟨fun i => hd.lo _, fun i => hd.lc _, fun i => hd.ch _, fun i => hd.hi _, fun i => hd.gap _, fun i => hd.vlo _, fun i => hd.vhi _⟩
      hwa (i - (wa - 1))
    rw [if_neg (by omega)]
    have := mul_le_mul_of_nonneg_left this hk.le
    linarith
  · have := atr_ge hd hwa (i - (wa - 1))
    rw [if_neg (by omega)]
    have := mul_le_mul_of_nonneg_left this hk.le
    linarith

theorem fading_fi {w : Nat} (hw : 1 ≤ w) : FadingRuns lo hi g vlo vhi (fun b => forceIndex (closes b) (volumes b) w false) := by
  have hf := (((fade_c (lo := lo) (hi := hi) (g := g) (vlo := vlo) (vhi := vhi)).mono (Nat.zero_le 1)).sub (fade_c.lag 1)).mul
    (fade_v.mono (Nat.zero_le 1))
  refine fading_of (p := w) (F := fun _ _ c v i => emaRec (2 / ((w : ℝ) + 1)) (fun j => (c (j + 1) - c j) * v (j + 1)) (i - 1)) ?_
    (((hf.ema (span_pos w) (span_le w hw)).mono hw).congr ?_ ?_)
  · intro n d hd out ho i hi hp
    simp only [(barsOf_cols _ _ _ _ _).2.2.1, (barsOf_cols _ _ _ _ _).2.2.2] at ho
    obtain ⟨out', h1, h2⟩ := forceIndex_formula n d.c d.v hw
    obtain rfl := Except.ok.inj (h1.symm.trans ho)
    exact h2.val i hi hp
  · intro d i _
    refine emaRec_congr fun j _ => ?_
    rw [Nat.add_comm 1 j, Nat.add_sub_cancel]
  · intro d i _
    refine emaRec_congr fun j _ => ?_
    rw [Nat.add_comm 1 j, Nat.add_sub_cancel]


theorem fading_trix {w : Nat} (hw : 2 ≤ w) (hlo : 0 < lo) : FadingRuns lo hi g vlo vhi (fun b => trix (closes b) w false) := by
  have h1 : 1 ≤ w := by omega
  set α : ℝ := 2 / ((w : ℝ) + 1) with hα
  have a0 : 0 < α := span_pos w
  have a1 : α ≤ 1 := span_le w h1
  have e1 := (fade_ema_c (lo := lo) (hi := hi) (g := g) (vlo := vlo) (vhi := vhi) h1).mono (Nat.zero_le (w - 1))
  have e2 := (e1.ema a0 a1).mono (Nat.le_add_right (w - 1) (w - 1))
  have e3 := e2.ema a0 a1
  have pos : ∀ c : Nat → ℝ, (∀ j, lo ≤ c j) → ∀ i, lo ≤ emaRec α (fun j => emaRec α (fun j => emaRec α c (w - 1 + j))
      (w - 1 + (w - 1) + j - (w - 1))) (i - (w - 1 + (w - 1))) := fun c hc i =>
    emaRec_ge a0 a1 (fun j => emaRec_ge a0 a1 (fun j => emaRec_ge a0 a1 hc _) _) _
  have e4 := (e3.mono (Nat.le_add_right _ 1)).div (e3.lag 1) hlo fun d hd i _ =>
    ⟨pos _ (fun j => (hd.lo _).trans (hd.lc _)) (i - 1), pos _ (fun j => (hd.lo _).trans (hd.lc _)) (i - 1)⟩
  refine fading_of (p := 3 * w - 2) (F := fun _ _ c _ i =>
    100 * (emaRec α (fun j => emaRec α (fun j => emaRec α c (w - 1 + j)) (w - 1 + (w - 1) + j - (w - 1))) (i - (w - 1 + (w - 1))) /
      emaRec α (fun j => emaRec α (fun j => emaRec α c (w - 1 + j)) (w - 1 + (w - 1) + j - (w - 1))) (i - 1 - (w - 1 + (w - 1))) - 1)) ?_
    (((e4.addc (-1)).cmul 100).mono (by omega))
  intro n d hd out ho i hi hp
  simp only [(barsOf_cols _ _ _ _ _).2.2.1] at ho
  obtain ⟨E1, E2, E3, out', x1, x2, x3, x4, x5⟩ := trix_formula (n := n) (fun i => hlo.trans_le ((hd.lo i).trans (hd.lc i))) hw
  obtain rfl := Except.ok.inj (x4.symm.trans ho)
  obtain rfl := funext x1
  obtain rfl := funext x2
  obtain rfl := funext x3
  exact x5.val i hi hp

/-- smoothing constant of KAMA -/
noncomputable def kSmooth (w pow1 pow2 : Nat) (c : Nat → ℝ) (i : Nat) : ℝ :=
  (effRatio c w i * (2 / ((pow1 : ℝ) + 1) - 2 / ((pow2 : ℝ) + 1)) + 2 / ((pow2 : ℝ) + 1)) ^ 2

/-- KAMA from row `w - 1` on, counted from there -/
noncomputable def kamaRec (w pow1 pow2 : Nat) (c : Nat → ℝ) : Nat → ℝ
  | 0 => c (w - 1)
  | i + 1 => kamaRec w pow1 pow2 c i + kSmooth w pow1 pow2 c (w + i) * (c (w + i) - kamaRec w pow1 pow2 c i)

theorem fading_kama {w pow1 pow2 : Nat} (hw : 1 ≤ w) (h1 : 1 ≤ pow1) (h2 : 1 ≤ pow2) :
    FadingRuns lo hi g vlo vhi (fun b => .ok (kama (closes b) w pow1 pow2 false)) := by
  set u : ℝ := 2 / ((pow1 : ℝ) + 1) with hu
  set t : ℝ := 2 / ((pow2 : ℝ) + 1) with ht
  have u0 : 0 < u := span_pos pow1
  have u1 : u ≤ 1 := span_le pow1 h1
  have t0 : 0 < t := span_pos pow2
  have t1 : t ≤ 1 := span_le pow2 h2
  have mem : ∀ (c : Nat → ℝ) (i : Nat), w ≤ i → (min u t) ^ 2 ≤ kSmooth w pow1 pow2 c i ∧ kSmooth w pow1 pow2 c i ≤ 1 := by
    intro c i hi
    obtain ⟨e0, e1⟩ := effRatio_mem c hi
    unfold kSmooth
    rw [← hu, ← ht]
    generalize effRatio c w i = e at *
    have a1 : min u t ≤ e * (u - t) + t := by
      have := min_le_left u t; have := min_le_right u t
      nlinarith
    have a2 : e * (u - t) + t ≤ 1 := by nlinarith
    have a0 : 0 < min u t := lt_min u0 t0
    exact ⟨pow_le_pow_left₀ a0.le a1 2, pow_le_one₀ (a0.le.trans a1) a2⟩
  have hstep : ∀ (c : Nat → ℝ) (i : Nat), w - 1 ≤ i → kamaRec w pow1 pow2 c (i + 1 - (w - 1))
      = (1 - kSmooth w pow1 pow2 c (i + 1)) * kamaRec w pow1 pow2 c (i - (w - 1)) + kSmooth w pow1 pow2 c (i + 1) * c (i + 1) := by
    intro c i hi
    rw [show i + 1 - (w - 1) = (i - (w - 1)) + 1 by omega, kamaRec, show w + (i - (w - 1)) = i + 1 by omega]
    ring
  have hc := (fade_c (lo := lo) (hi := hi) (g := g) (vlo := vlo) (vhi := vhi)).mono (Nat.zero_le (w - 1))
  obtain ⟨B, hB⟩ := hc.bdd
  refine fading_of (p := w - 1) (F := fun _ _ c _ i => kamaRec w pow1 pow2 c (i - (w - 1))) ?_
    (hc.smooth (α := (min u t) ^ 2) (pow_pos (lt_min u0 t0) 2)
      (fun d => kSmooth w pow1 pow2 (fun j => d.c (d.k + j))) (fun d => kSmooth w pow1 pow2 d.c)
      (fun d _ i hi => mem _ i (by omega)) (fun d _ i hi => mem _ i (by omega)) ⟨w, fun d _ i hi => ?_⟩
      (fun d _ i hi => hstep _ i hi) (fun d _ i hi => hstep _ i hi) ⟨B, fun d hd => ?_⟩)
  · intro n d hd out ho i hi hp
    simp only [(barsOf_cols _ _ _ _ _).2.2.1] at ho
    obtain ⟨Y, y0, y1, hD⟩ := kama_formula n d.c hw pow1 pow2
    rw [← Except.ok.inj ho, hD.val i hi hp]
    congr 1
    have key : ∀ j, Y (w - 1 + j) = kamaRec w pow1 pow2 d.c j := by
      intro j
      induction j with
      | zero => exact y0
      | succ j ih =>
        rw [y1 _ (by omega), show w - 1 + (j + 1) - 1 = w - 1 + j by omega, ih, kamaRec, show w - 1 + (j + 1) = w + j by omega]
        rfl
    have := key (i - (w - 1))
    rwa [Nat.add_sub_cancel' hp] at this
  · unfold kSmooth
    rw [effRatio_shift d.c d.k hi]
  · have := hB d hd (w - 1) (le_refl _)
    simpa [kamaRec] using this

theorem fading_mass {fast slow : Nat} (hf : 1 ≤ fast) (hs : 1 ≤ slow) (hg : 0 < g) :
    FadingRuns lo hi g vlo vhi (fun b => massIndex (highs b) (lows b) fast slow false) := by
  have hr : Fade (Hist.In lo hi g vlo vhi) 0 (fun d i => d.h (d.k + i) - d.l (d.k + i)) (fun d i => d.h i - d.l i) :=
    (Fade.col (lo := lo) (hi := hi) fun _ h i => ⟨(h.lo i).trans ((h.lc i).trans (h.ch i)), h.hi i⟩).sub
      (Fade.col (lo := lo) (hi := hi) fun _ h i => ⟨h.lo i, (h.lc i).trans ((h.ch i).trans (h.hi i))⟩)
  set α : ℝ := 2 / ((fast : ℝ) + 1) with hα
  have a0 : 0 < α := span_pos fast
  have a1 : α ≤ 1 := span_le fast hf
  have e1 := (hr.ema0 a0 a1).mono (Nat.zero_le (fast - 1))
  have e2 := e1.ema a0 a1
  have pos : ∀ r : Nat → ℝ, (∀ j, g ≤ r j) → ∀ i, g ≤ emaRec α (fun j => emaRec α r (fast - 1 + j)) (i - (fast - 1)) := fun r h i =>
    emaRec_ge a0 a1 (fun j => emaRec_ge a0 a1 h _) _
  have e3 := (e1.div e2 hg fun d hd i _ => ⟨pos (fun j => d.h (d.k + j) - d.l (d.k + j)) (fun j => by have := hd.gap (d.k + j); linarith) i,
    pos (fun j => d.h j - d.l j) (fun j => by have := hd.gap j; linarith) i⟩).wsum hs
  refine fading_of (p := 2 * (fast - 1) + slow - 1) (F := fun h l _ _ i => ∑ j ∈ Finset.Ico (i + 1 - slow) (i + 1),
    emaRec α (fun t => h t - l t) j / emaRec α (fun t => emaRec α (fun t => h t - l t) (fast - 1 + t)) (j - (fast - 1))) ?_
    (e3.mono (by omega))
  intro n d hd out ho i hi hp
  simp only [(barsOf_cols _ _ _ _ _).1, (barsOf_cols _ _ _ _ _).2.1] at ho
  obtain ⟨p, E1, E2, out', hp', x1, x2, x3, x4⟩ := mass_formula (n := n) (fun i => by have := hd.gap i; linarith : ∀ i, d.l i < d.h i) hf hs false
  obtain rfl := Except.ok.inj (x3.symm.trans ho)
  simp only [Bool.false_eq_true, if_false] at hp' x4
  subst hp'
  obtain rfl := funext x1
  obtain rfl := funext x2
  exact x4.val i hi (by omega)

/-- the directional indicators -/
theorem fading_di {w : Nat} (hw : 1 ≤ w) (hg : 0 < g) :
    FadingRuns lo hi g vlo vhi (fun b => (ADX.new (highs b) (lows b) (closes b) w false).map (·.adxPos)) ∧
    FadingRuns lo hi g vlo vhi (fun b => (ADX.new (highs b) (lows b) (closes b) w false).map (·.adxNeg)) := by
  have hT : Fade (Hist.In lo hi g vlo vhi) 1
      (fun d => trv (fun j => d.h (d.k + j)) (fun j => d.l (d.k + j)) (fun j => d.c (d.k + j))) (fun d => trv d.h d.l d.c) := by
    refine ((fade_tr (lo := lo) (hi := hi) (g := g) (vlo := vlo) (vhi := vhi)).mono (Nat.zero_le 1)).congr ?_ ?_ <;>
    · intro d i hi
      unfold tr0 trv
      rw [if_neg (by omega)]
  have bnd : ∀ d : Hist, d.In lo hi g vlo vhi → ∀ i j, |d.h i - d.h j| ≤ hi - lo ∧ |d.l i - d.l j| ≤ hi - lo := by
    intro d hd i j
    have := hd.lo i; have := hd.lc i; have := hd.ch i; have := hd.hi i
    have := hd.lo j; have := hd.lc j; have := hd.ch j; have := hd.hi j
    constructor <;> rw [abs_le] <;> constructor <;> linarith
  have hBn : ∀ d : Hist, d.In lo hi g vlo vhi → 0 ≤ hi - lo := fun d hd => (abs_nonneg _).trans (bnd d hd 0 0).1
  have hU : Fade (Hist.In lo hi g vlo vhi) 1 (fun d => dmUp (fun j => d.h (d.k + j)) (fun j => d.l (d.k + j))) (fun d => dmUp d.h d.l) := by
    refine Fade.eventually (M := 1) (B := hi - lo) (fun d hd i _ => ⟨?_, ?_⟩) fun d hd i hi' => ?_
    · unfold dmUp
      split_ifs
      · exact (bnd d hd _ _).1
      · rw [abs_zero]; exact hBn d hd
    · unfold dmUp
      split_ifs
      · exact (bnd d hd _ _).1
      · rw [abs_zero]; exact hBn d hd
    · unfold dmUp
      dsimp only
      rw [show d.k + i - 1 = d.k + (i - 1) by omega]
  have hD : Fade (Hist.In lo hi g vlo vhi) 1 (fun d => dmDown (fun j => d.h (d.k + j)) (fun j => d.l (d.k + j))) (fun d => dmDown d.h d.l) := by
    refine Fade.eventually (M := 1) (B := hi - lo) (fun d hd i _ => ⟨?_, ?_⟩) fun d hd i hi' => ?_
    · unfold dmDown
      split_ifs
      · exact (bnd d hd _ _).2
      · rw [abs_zero]; exact hBn d hd
    · unfold dmDown
      split_ifs
      · exact (bnd d hd _ _).2
      · rw [abs_zero]; exact hBn d hd
    · unfold dmDown
      dsimp only
      rw [show d.k + i - 1 = d.k + (i - 1) by omega]
  have hwp : (0 : ℝ) < w := by exact_mod_cast hw
  have hw1 : (1 : ℝ) ≤ w := by exact_mod_cast hw
  have ge : ∀ h l c : Nat → ℝ, (∀ j, l j + g ≤ h j) → ∀ i, g * w ≤ wil (trv h l c) w i := by
    intro h l c hgap i
    have tv : ∀ j, g ≤ trv h l c j := by
      intro j
      unfold trv
      have a3 : h j ≤ max (h j) (c (j - 1)) := le_max_left _ _
      have a4 : min (l j) (c (j - 1)) ≤ l j := min_le_left _ _
      linarith [hgap j]
    induction i with
    | zero =>
      unfold wil
      have := Finset.card_nsmul_le_sum (Finset.Ico 1 (w + 1)) (trv h l c) g fun j _ => tv j
      simp at this
      linarith
    | succ i ih =>
      rw [wil]
      have e : wil (trv h l c) w i - wil (trv h l c) w i / w = wil (trv h l c) w i * (1 - 1 / w) := by ring
      have h1 : (1 : ℝ) / w ≤ 1 := by rw [div_le_one hwp]; exact hw1
      have e2 : g * w * (1 - 1 / w) = g * w - g := by field_simp
      rw [e]
      have := mul_le_mul_of_nonneg_right ih (by linarith : (0 : ℝ) ≤ 1 - 1 / w)
      linarith [tv (w + 1 + i)]
  have hgw : 0 < g * w := mul_pos hg hwp
  have quo : ∀ {a b : Hist → Nat → ℝ}, Fade (Hist.In lo hi g vlo vhi) 1 a b → Fade (Hist.In lo hi g vlo vhi) (w + 1)
      (fun d k => if k ≤ w then 0 else dirInd (wil (trv (fun j => d.h (d.k + j)) (fun j => d.l (d.k + j)) (fun j => d.c (d.k + j))) w (k - w))
        (wil (a d) w (k - w)))
      (fun d k => if k ≤ w then 0 else dirInd (wil (trv d.h d.l d.c) w (k - w)) (wil (b d) w (k - w))) := by
    intro a b hab
    have q := (((hab.wil hw).div (hT.wil hw) hgw fun d hd i _ => ⟨ge _ _ _ (fun j => hd.gap _) _, ge _ _ _ (fun j => hd.gap _) _⟩).cmul 100).mono
      (Nat.le_succ w)
    refine q.congr' ?_ ?_
    · intro d hd i hi
      rw [if_neg (by omega)]
      unfold dirInd
      rw [if_neg (hgw.trans_le (ge _ _ _ (fun j => hd.gap _) _)).ne']
      ring
    · intro d hd i hi
      rw [if_neg (by omega)]
      unfold dirInd
      rw [if_neg (hgw.trans_le (ge _ _ _ (fun j => hd.gap _) _)).ne']
      ring
  refine ⟨fading_of (p := w + 1) (F := fun h l c _ k => if k ≤ w then 0 else plusDI h l c w (k - w)) ?_ (quo hU),
    fading_of (p := w + 1) (F := fun h l c _ k => if k ≤ w then 0 else minusDI h l c w (k - w)) ?_ (quo hD)⟩
  · intro n d hd out ho i hi hp
    simp only [(barsOf_cols _ _ _ _ _).2.2.1, (barsOf_cols _ _ _ _ _).1, (barsOf_cols _ _ _ _ _).2.1] at ho
    obtain ⟨o, ho', rfl⟩ := except_map_ok ho
    exact (adx_di_formula ho').1.val i hi (Nat.zero_le _)
  · intro n d hd out ho i hi hp
    simp only [(barsOf_cols _ _ _ _ _).2.2.1, (barsOf_cols _ _ _ _ _).1, (barsOf_cols _ _ _ _ _).2.1] at ho
    obtain ⟨o, ho', rfl⟩ := except_map_ok ho
    exact (adx_di_formula ho').2.val i hi (Nat.zero_le _)


/-! ## C73 -/

/-- Which outputs have a fading memory: everything with a finite memory that is always a number, and the outputs built from exponential and
Wilder averages whose denominators cannot come close to 0 on bars that have a range. -/
def Ind.fades : Ind (Val ℝ) → Prop
  | .ema _ | .atr _ | .fi _ | .trix _ | .massIndex .. | .adxPos _ | .adxNeg _ => True
  | .macd a b c | .macdSignal a b c | .macdDiff a b c | .ppo a b c | .ppoSignal a b c | .ppoHist a b c
  | .pvo a b c | .pvoSignal a b c | .pvoHist a b c => 1 ≤ a ∧ 1 ≤ b ∧ 1 ≤ c
  | .kama _ pow1 pow2 => 1 ≤ pow1 ∧ 1 ≤ pow2
  | .kcMband .. | .kcHband .. | .kcLband .. | .kcWband .. => True
  | .kcPband _ _ original k => original = true ∨ ∃ x, k = .fin x ∧ 0 < x
  | x => x.memory.isSome ∧ x.always

theorem BarIn.pos {lo hi g vlo vhi : ℝ} (hlo : 0 < lo) (hg : 0 < g) (hv : 0 < vlo) {r : Bar (Val ℝ)} (h : BarIn lo hi g vlo vhi r) :
    PosBar r := by
  obtain ⟨x, y, z, v, e, h1, h2, h3, h4, h5, h6, h7⟩ := h
  exact ⟨x, y, z, v, e, by linarith, by linarith, h2, h3, by linarith⟩

/-- windowed outputs do not even need the `ε` -/
theorem fading_of_memory {lo hi g vlo vhi : ℝ} (hlo : 0 < lo) (hg : 0 < g) (hv : 0 < vlo) (x : Ind (Val ℝ)) (hx : x.Sane) {m : Nat}
    (hm : x.memory = some m) (ha : x.always) : FadingMemory lo hi g vlo vhi (fun b => x.eval false b) := by
  refine FadingRuns.memory ?_ 0 fun b _ => memory_ok x hx hm b
  intro ε hε
  refine ⟨max m x.lookback, fun old recent hb out out' h1 h2 i hi hi' => ?_⟩
  have hw := warmup x hx recent (fun r hr => (hb r (List.mem_append_right _ hr)).pos hlo hg hv) h1
  obtain ⟨y, hy⟩ := hw.2.2 ha i hi' (by omega)
  have e := (finite_memory x hm).row h1 h2 (i := i) (by omega)
  exact ⟨y, y, hy, by rw [e]; exact hy, by simpa using hε⟩

/-- C73. On bars whose prices, ranges and volumes stay between positive bounds, these outputs have a fading memory. -/
theorem fading_memory {lo hi g vlo vhi : ℝ} (hlo : 0 < lo) (hg : 0 < g) (hv : 0 < vlo) (x : Ind (Val ℝ)) (hx : x.Sane) (hf : x.fades) :
    FadingMemory lo hi g vlo vhi (fun b => x.eval false b) := by
  have ok : ∀ m, (∀ b : List (Bar (Val ℝ)), m < b.length → ∀ e, ¬ x.raises false b.length (someNum b) e) →
      ∀ b : List (Bar (Val ℝ)), m < b.length → ∃ out, x.eval false b = .ok out := by
    intro m h b hb
    cases he : x.eval false b with
    | ok out => exact ⟨out, rfl⟩
    | error e => exact absurd ((raises_iff x false b e).mp he) (h b hb e)
  have win : x.memory.isSome ∧ x.always → FadingMemory lo hi g vlo vhi (fun b => x.eval false b) := by
    rintro ⟨h1, h2⟩
    obtain ⟨m, hm⟩ := Option.isSome_iff_exists.mp h1
    exact fading_of_memory hlo hg hv x hx hm h2
  cases x
  case ema w => exact (fading_ema hx).memory 0 (ok 0 fun b _ e h => by simp only [Ind.raises, Ind.Sane] at h hx; omega)
  case atr w => exact (fading_atr hx).memory w (ok w fun b _ e h => by simp only [Ind.raises, Ind.Sane] at h hx; omega)
  case fi w => exact (fading_fi hx).memory 0 (ok 0 fun b _ e h => by simp only [Ind.raises, Ind.Sane] at h hx; omega)
  case trix w => exact (fading_trix hx hlo).memory 0 (ok 0 fun b _ e h => by simp only [Ind.raises, Ind.Sane] at h hx; omega)
  case massIndex f s =>
    exact (fading_mass hx.1 hx.2 hg).memory 0 (ok 0 fun b _ e h => by simp only [Ind.raises, Ind.Sane] at h hx; omega)
  case adxPos w => exact (fading_di hx hg).1.memory w (ok w fun b _ e h => by simp only [Ind.raises, Ind.Sane] at h hx; omega)
  case adxNeg w => exact (fading_di hx hg).2.memory w (ok w fun b _ e h => by simp only [Ind.raises, Ind.Sane] at h hx; omega)
  case kama w p1 p2 => exact (fading_kama hx hf.1 hf.2).memory 0 fun b _ => ⟨_, rfl⟩
  case macd => exact (fading_macd hf.1 hf.2.1 hf.2.2).1.memory 0 (ok 0 fun b _ e h => by simp only [Ind.raises, Ind.fades] at h hf; omega)
  case macdSignal => exact (fading_macd hf.1 hf.2.1 hf.2.2).2.1.memory 0 (ok 0 fun b _ e h => by simp only [Ind.raises, Ind.fades] at h hf; omega)
  case macdDiff => exact (fading_macd hf.1 hf.2.1 hf.2.2).2.2.memory 0 (ok 0 fun b _ e h => by simp only [Ind.raises, Ind.fades] at h hf; omega)
  case ppo => exact (fading_ppo hf.1 hf.2.1 hf.2.2 hlo).1.memory 0 (ok 0 fun b _ e h => by simp only [Ind.raises, Ind.fades] at h hf; omega)
  case ppoSignal => exact (fading_ppo hf.1 hf.2.1 hf.2.2 hlo).2.1.memory 0 (ok 0 fun b _ e h => by simp only [Ind.raises, Ind.fades] at h hf; omega)
  case ppoHist => exact (fading_ppo hf.1 hf.2.1 hf.2.2 hlo).2.2.memory 0 (ok 0 fun b _ e h => by simp only [Ind.raises, Ind.fades] at h hf; omega)
  case pvo => exact (fading_pvo hf.1 hf.2.1 hf.2.2 hv).1.memory 0 (ok 0 fun b _ e h => by simp only [Ind.raises, Ind.fades] at h hf; omega)
  case pvoSignal => exact (fading_pvo hf.1 hf.2.1 hf.2.2 hv).2.1.memory 0 (ok 0 fun b _ e h => by simp only [Ind.raises, Ind.fades] at h hf; omega)
  case pvoHist => exact (fading_pvo hf.1 hf.2.1 hf.2.2 hv).2.2.memory 0 (ok 0 fun b _ e h => by simp only [Ind.raises, Ind.fades] at h hf; omega)
  case kcMband w wa o k =>
    cases o
    · obtain ⟨h1, h2, y, rfl⟩ := hx
      exact (fading_keltner h1 h2 y).1.memory wa (ok wa fun b _ e h => by simp only [Ind.raises] at h; omega)
    · exact win ⟨rfl, trivial⟩
  case kcHband w wa o k =>
    cases o
    · obtain ⟨h1, h2, y, rfl⟩ := hx
      exact (fading_keltner h1 h2 y).2.1.memory wa (ok wa fun b _ e h => by simp only [Ind.raises] at h; omega)
    · exact win ⟨rfl, trivial⟩
  case kcLband w wa o k =>
    cases o
    · obtain ⟨h1, h2, y, rfl⟩ := hx
      exact (fading_keltner h1 h2 y).2.2.1.memory wa (ok wa fun b _ e h => by simp only [Ind.raises] at h; omega)
    · exact win ⟨rfl, trivial⟩
  case kcWband w wa o k =>
    cases o
    · obtain ⟨h1, h2, y, rfl⟩ := hx
      exact ((fading_keltner h1 h2 y).2.2.2.1 hlo).memory wa (ok wa fun b _ e h => by simp only [Ind.raises] at h; omega)
    · exact win ⟨rfl, trivial⟩
  case kcPband w wa o k =>
    cases o
    · obtain ⟨h1, h2, y, rfl⟩ := hx
      simp only [Ind.fades, Bool.false_eq_true, false_or] at hf
      obtain ⟨z, hz, hp⟩ := hf
      rw [← Val.fin.inj hz] at hp
      exact ((fading_keltner h1 h2 y).2.2.2.2 hg hp).memory wa (ok wa fun b _ e h => by simp only [Ind.raises] at h; omega)
    · exact win ⟨rfl, rfl⟩
  all_goals exact win hf


/-! ## how fast -/

/-- C73, the rate for the EMA. Whatever came before, after `i` rows it makes a difference of at most `(1 - 2/(w+1))^i` times the range of
the prices. -/
theorem ema_fades_geometrically {lo hi : ℝ} {c : Nat → ℝ} (hc : ∀ i, lo ≤ c i ∧ c i ≤ hi) (k n : Nat) {w : Nat} (hw : 1 ≤ w) :
    ∃ out out', emaIndicator (ser n fun i => c (k + i)) w false = .ok out ∧ emaIndicator (ser (k + n) c) w false = .ok out' ∧
      ∀ i, w - 1 ≤ i → i < n → ∃ x y : ℝ, ix out i = .fin x ∧ ix out' (k + i) = .fin y ∧
        |x - y| ≤ (1 - 2 / ((w : ℝ) + 1)) ^ i * (hi - lo) := by
  obtain ⟨e, e0, e1, out, h1, h2⟩ := ema_recurrence n (fun i => c (k + i)) w hw false
  obtain ⟨e', e0', e1', out', h1', h2'⟩ := ema_recurrence (k + n) c w hw false
  have a0 := span_pos (K := ℝ) w
  have a1 := span_le (K := ℝ) w hw
  generalize (2 : ℝ) / ((w : ℝ) + 1) = α at *
  refine ⟨out, out', h1, h1', fun i hp hin => ⟨e i, e' (k + i), h2.val i hin (by simpa using hp), h2'.val _ (by omega) (by simp; omega), ?_⟩⟩
  have mem : ∀ j, lo ≤ e' j ∧ e' j ≤ hi := by
    intro j
    induction j with
    | zero => rw [e0']; exact hc 0
    | succ j ih =>
      rw [e1']
      have := hc (j + 1)
      constructor <;> nlinarith
  clear hp hin
  induction i with
  | zero =>
    rw [e0, pow_zero, one_mul, abs_le]
    have m1 := mem (k + 0)
    have m2 := hc (k + 0)
    constructor <;> linarith
  | succ i ih =>
    rw [← Nat.add_assoc, e1, e1', ← Nat.add_assoc, pow_succ]
    have : (1 - α) * e i + α * c (k + i + 1) - ((1 - α) * e' (k + i) + α * c (k + i + 1)) = (1 - α) * (e i - e' (k + i)) := by ring
    rw [this, abs_mul, abs_of_nonneg (by linarith : 0 ≤ 1 - α)]
    have := mul_le_mul_of_nonneg_left ih (by linarith : 0 ≤ 1 - α)
    linarith

/-! ## outputs that never forget -/

theorem not_fading {lo hi g vlo vhi : ℝ} {f : List (Bar (Val ℝ)) → Except PyErr (Series (Val ℝ))} (d : Hist) (hd : d.In lo hi g vlo vhi)
    {ε : ℝ} (hε : 0 < ε) (h : ∀ N, ∃ n i, N ≤ i ∧ i < n ∧ ∀ out out',
      f (barsOf n (fun j => d.h (d.k + j)) (fun j => d.l (d.k + j)) (fun j => d.c (d.k + j)) (fun j => d.v (d.k + j))) = .ok out →
      f (barsOf (d.k + n) d.h d.l d.c d.v) = .ok out' → ∀ x y, ix out i = .fin x → ix out' (d.k + i) = .fin y → ε ≤ |x - y|) :
    ¬ FadingMemory lo hi g vlo vhi f := by
  intro hf
  obtain ⟨N, hN⟩ := hf ε hε
  obtain ⟨n, i, h1, h2, h3⟩ := h N
  have len : (barsOf n (fun j => d.h (d.k + j)) (fun j => d.l (d.k + j)) (fun j => d.c (d.k + j)) (fun j => d.v (d.k + j))).length = n := by
    simp [barsOf]
  have len' : (barsOf d.k d.h d.l d.c d.v).length = d.k := by simp [barsOf]
  obtain ⟨o1, o2, e1, e2, hr⟩ := hN (barsOf d.k d.h d.l d.c d.v)
    (barsOf n (fun j => d.h (d.k + j)) (fun j => d.l (d.k + j)) (fun j => d.c (d.k + j)) (fun j => d.v (d.k + j)))
    (by
      rw [← barsOf_append]
      intro r hr
      unfold barsOf tab at hr
      obtain ⟨j, _, rfl⟩ := List.mem_map.mp hr
      exact ⟨_, _, _, _, rfl, hd.lo j, hd.lc j, hd.ch j, hd.hi j, hd.gap j, hd.vlo j, hd.vhi j⟩) (by rw [len]; omega)
  rw [← barsOf_append] at e2
  obtain ⟨x, y, hx, hy, hxy⟩ := hr i h1 (by rw [len]; exact h2)
  rw [len'] at hy
  exact absurd hxy (not_lt.mpr (h3 o1 o2 e1 e2 x y hx hy))

/-- C73, the limits. The RSI does not forget, in spite of its exponential averages: on a flat market one fall in the past, however long
ago, is the difference between 0 and 100. Neither do running totals. -/
theorem never_forgets :
    (∀ w, 2 ≤ w → ¬ FadingMemory 1 3 2 1 1 (fun b => (Ind.rsi w : Ind (Val ℝ)).eval false b)) ∧
    ¬ FadingMemory 1 3 2 1 1 (fun b => (Ind.obv : Ind (Val ℝ)).eval false b) ∧
    ¬ FadingMemory 1 3 2 1 1 (fun b => (Ind.adi : Ind (Val ℝ)).eval false b) ∧
    ¬ FadingMemory 1 3 2 1 1 (fun b => (Ind.cr : Ind (Val ℝ)).eval false b) := by
  let d : Hist := ⟨1, fun _ => 3, fun _ => 1, fun i => if i = 0 then 2 else 1, fun _ => 1⟩
  have hd : d.In 1 3 2 1 1 := by
    refine ⟨fun i => le_refl _, fun i => ?_, fun i => ?_, fun i => le_refl _, fun i => ?_, fun i => le_refl _, fun i => le_refl _⟩
    · simp only [d]; split_ifs <;> norm_num
    · simp only [d]; split_ifs <;> norm_num
    · norm_num [d]
  let d0 : Hist := ⟨1, fun _ => 3, fun _ => 1, fun _ => 3, fun _ => 1⟩
  have hd0 : d0.In 1 3 2 1 1 := by
    refine ⟨fun i => le_refl _, fun i => ?_, fun i => le_refl _, fun i => le_refl _, fun i => ?_, fun i => le_refl _, fun i => le_refl _⟩ <;>
      norm_num [d0]
  refine ⟨fun w hw => ?_, ?_, ?_, ?_⟩
  · refine not_fading d hd (ε := 100) (by norm_num) fun N => ⟨N + w + 1, N + w, by omega, by omega, fun o1 o2 h1 h2 x y hx hy => ?_⟩
    simp only [Ind.eval, (barsOf_cols _ _ _ _ _).2.2.1] at h1 h2
    rw [rsi_never_fell _ _ w (by omega) false o1 h1 (N + w) (by omega) (Or.inr (by omega)) (fun j _ => by simp [d])] at hx
    rw [rsi_never_rose _ _ w hw false o2 h2 (d.k + (N + w)) (by omega) (Or.inr (by omega))
      (fun j _ => by simp only [d]; split_ifs <;> norm_num at *) 0 (by simp [d]) (by norm_num [d])] at hy
    rw [← Val.fin.inj hx, ← Val.fin.inj hy]
    norm_num
  · refine not_fading d0 hd0 (ε := 1) (by norm_num) fun N => ⟨N + 1, N, le_refl _, by omega, fun o1 o2 h1 h2 x y hx hy => ?_⟩
    simp only [Ind.eval, (barsOf_cols _ _ _ _ _).2.2.1, (barsOf_cols _ _ _ _ _).2.2.2] at h1 h2
    have d1 := obv_formula (N + 1) (fun j => d0.c (d0.k + j)) (fun j => d0.v (d0.k + j)) false
    have d2 := obv_formula (d0.k + (N + 1)) d0.c d0.v false
    rw [← Except.ok.inj h1, d1.val N (by omega) (Nat.zero_le _)] at hx
    rw [← Except.ok.inj h2, d2.val _ (by omega) (Nat.zero_le _)] at hy
    rw [← Val.fin.inj hx, ← Val.fin.inj hy]
    simp [d0]
  · refine not_fading d0 hd0 (ε := 1) (by norm_num) fun N => ⟨N + 1, N, le_refl _, by omega, fun o1 o2 h1 h2 x y hx hy => ?_⟩
    simp only [Ind.eval, (barsOf_cols _ _ _ _ _).1, (barsOf_cols _ _ _ _ _).2.1, (barsOf_cols _ _ _ _ _).2.2.1,
      (barsOf_cols _ _ _ _ _).2.2.2] at h1 h2
    have d1 := adi_formula (N + 1) (fun j => d0.h (d0.k + j)) (fun j => d0.l (d0.k + j)) (fun j => d0.c (d0.k + j)) (fun j => d0.v (d0.k + j))
      (fun i => hd0.lc _) (fun i => hd0.ch _) false
    have d2 := adi_formula (d0.k + (N + 1)) d0.h d0.l d0.c d0.v hd0.lc hd0.ch false
    rw [← Except.ok.inj h1, d1.val N (by omega) (Nat.zero_le _)] at hx
    rw [← Except.ok.inj h2, d2.val _ (by omega) (Nat.zero_le _)] at hy
    rw [← Val.fin.inj hx, ← Val.fin.inj hy]
    norm_num [d0]
  · refine not_fading d hd (ε := 50) (by norm_num) fun N => ⟨N + 1, N, le_refl _, by omega, fun o1 o2 h1 h2 x y hx hy => ?_⟩
    simp only [Ind.eval, (barsOf_cols _ _ _ _ _).2.2.1] at h1 h2
    have hc : ∀ i, 0 < d.c i := fun i => by simp only [d]; split_ifs <;> norm_num
    obtain ⟨_, C1, o1', _, _, c1, _, h1', d1, _⟩ := returns_compound (n := N + 1) (by omega) (fun i => hc (d.k + i)) false
    obtain ⟨_, C2, o2', _, _, c2, _, h2', d2, _⟩ := returns_compound (n := d.k + (N + 1)) (by omega) hc false
    rw [← Except.ok.inj (h1'.symm.trans h1), d1.val N (by omega) (Nat.zero_le _)] at hx
    rw [← Except.ok.inj (h2'.symm.trans h2), d2.val _ (by omega) (Nat.zero_le _)] at hy
    rw [← Val.fin.inj hx, ← Val.fin.inj hy, c1, c2]
    norm_num [d]

section examples
attribute [local instance] toyFn

/-- an EMA with and without a wild past: the difference halves with every row (`w = 3`, factor 1/2) -/
example :
    let old := [qbar 90 80 90 1, qbar 70 50 60 9]
    let recent := [qbar 12 10 11 5, qbar 14 11 13 7, qbar 13 9 10 4, qbar 15 12 14 6]
    ((Ind.ema 3).eval false recent).map (·.drop 2) = .ok (qs [11, 25/2]) ∧
    ((Ind.ema 3).eval false (old ++ recent)).map (·.drop 4) = .ok (qs [19, 33/2]) := by decide +kernel

/-- an RSI with and without a fall in the past -/
example :
    ((Ind.rsi 2).eval false [qb 5, qb 5, qb 5, qb 5]).map (·.drop 1) = .ok (qs [100, 100, 100]) ∧
    ((Ind.rsi 2).eval false ([qb 6] ++ [qb 5, qb 5, qb 5, qb 5])).map (·.drop 2) = .ok (qs [0, 0, 0]) := by decide +kernel

end examples

end TA
