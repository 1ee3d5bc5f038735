import Verif.Model.Objects
import Verif.Lemmas.Toy
import Verif.Lemmas.NewEq
import Verif.Lemmas.Look
import Verif.Props.C01

/-!
# C90: indicator objects over time
-/

namespace TA

set_option linter.unusedSectionVars false
set_option linter.unusedSimpArgs false

variable {F : Type} [FltFn F]

/-- When a method reads the caller's columns. -/
inductive Timing where
  /-- never: everything was computed by the constructor -/
  | snapshot
  /-- only now: the constructor computed nothing of what it returns -/
  | live
  /-- the line from the constructor, the closes to compare it with now -/
  | mixed
  /-- from the constructor, but the closes that fill the gaps now -/
  | fill
  deriving DecidableEq

/-- The table of C90. -/
def Ind.timing {F : Type} : Ind F → Timing
  | .ema _ | .sma _ | .ichimokuB .. => .live
  | .bbPband .. | .bbHi .. | .bbLi .. | .kcPband .. | .kcHi .. | .kcLi .. | .dcWband .. | .dcPband .. => .mixed
  | .kama .. => .fill
  | _ => .snapshot

/-- The outputs that are computed anew by every call, so that the Series handed out is the caller's alone. The others hand out the array the object
keeps, unless `fillna=True`. -/
def Ind.fresh {F : Type} : Ind F → Bool
  | .stochSignal .. | .stochrsiD .. | .aroonInd .. | .ema _ | .sma _ | .ichimokuA .. | .ichimokuB .. | .kstDiff .. => true
  | .adx _ | .adxPos _ | .adxNeg _ | .vortexDiff _ | .psarUpInd .. | .psarDownInd .. | .smaEom _ => true
  | .bbWband .. | .bbPband .. | .bbHi .. | .bbLi .. | .kcWband .. | .kcPband .. | .kcHi .. | .kcLi .. => true
  | .dcHband _ off | .dcLband _ off => off ≠ 0
  | .dcMband .. | .dcWband .. | .dcPband .. => true
  | _ => false

/-- The rows of the input columns after a history. -/
def overwritten (b : List (Bar F)) : List (Ev F) → List (Bar F)
  | [] => b
  | .input i r :: h => overwritten (b.set i r) h
  | _ :: h => overwritten b h

/-- The object just built. -/
def World.start (b : List (Bar F)) (a : List (Series F)) : World F := ⟨b, a, []⟩

/-- A history in which the caller writes only into Series of their own: outputs of an object with `fillna=True`, or fresh ones. -/
def Tidy (fillna : Bool) (w : World F) : List (Ev F) → Prop
  | [] => True
  | e :: h => (∀ j i v, e = .poke j i v → fillna = true ∨ ∀ p, w.outs[j]? = some p → p.1.fresh = true) ∧ Tidy fillna (w.step fillna e) h

theorem attr_nil (k : Nat) : attr ([] : List (Series F)) k = [] := by simp [attr]
theorem attr_zero (s : Series F) (l) : attr (s :: l) 0 = s := rfl
theorem attr_succ (s : Series F) (l) (k : Nat) : attr (s :: l) (k + 1) = attr l k := rfl

/-- A call hands out an array of the object exactly for the outputs that are not fresh, without fill. -/
theorem call_own {fillna : Bool} {a : List (Series F)} {b : List (Bar F)} {x : Ind F} {k : Nat} (h : x.call fillna a b = .ok (.own k)) :
    fillna = false ∧ x.fresh = false := by
  have key : ∀ v k', handOut fillna v a k' = .ok (.own k) → fillna = false := by
    intro v k' e
    cases fillna
    · rfl
    · simp [handOut] at e
  cases x
  all_goals first
    | exact ⟨key _ _ h, rfl⟩
    | (simp only [Ind.call, handNew, Except.ok.injEq, reduceCtorEq] at h; done)
    | skip
  case ema w => simp only [Ind.call] at h; cases e : emaIndicator (closes b) w fillna <;> rw [e] at h <;> simp [Except.map] at h
  case adx w => simp only [Ind.call] at h; cases e : (adxObj fillna w a b.length).adx <;> rw [e] at h <;> simp [Except.map] at h
  all_goals
    rename_i w off
    by_cases e : off = 0
    · subst e; exact ⟨key _ _ h, rfl⟩
    · simp [Ind.call, e] at h

theorem attr_one (s t : Series F) (l) : attr (s :: t :: l) 1 = t := rfl
theorem attr_two (s t u : Series F) (l) : attr (s :: t :: u :: l) 2 = u := rfl
theorem ok_bind {α β : Type} (a : α) (f : α → Except PyErr β) : (Except.ok a >>= f) = f a := rfl
theorem ok_map {α β : Type} (a : α) (f : α → β) : (Except.ok a : Except PyErr α).map f = .ok (f a) := rfl
theorem pure_ok {α : Type} (a : α) : (pure a : Except PyErr α) = .ok a := rfl
theorem guard_bind {α β : Type} {p : Prop} [Decidable p] {e : PyErr} {k : α} {f : α → Except PyErr β} :
    ((if p then .error e else .ok k) >>= f) = if p then .error e else f k := by split_ifs <;> rfl
theorem chk_bind {α β : Type} (e : Except PyErr Unit) (k : Except PyErr α) (g : α → Except PyErr β) :
    ((do e; k) >>= g) = (do e; k >>= g) := by cases e <;> rfl
theorem ask_out (fillna : Bool) (v : Fill F) (b a outs) (k : Nat) :
    (handOut fillna v a k).map (World.read (⟨b, a, outs⟩ : World F)) = .ok (checkFillna fillna v (attr a k)) := by
  cases fillna <;> rfl
theorem ask_hnew (fillna : Bool) (v : Fill F) (w : World F) (s : Series F) : (handNew fillna v s).map w.read = .ok (checkFillna fillna v s) := rfl
theorem ask_new (w : World F) (s : Series F) : (Except.ok (.new s) : Except PyErr (Ret F)).map w.read = .ok s := rfl
theorem ask_map_new (w : World F) (e : Except PyErr (Series F)) : (e.map .new).map w.read = e := by cases e <;> rfl

/-- What the method `x` returns on an object built from the rows `b0` when the input columns meanwhile hold the rows `b1`. -/
def Ind.late (fillna : Bool) (b0 b1 : List (Bar F)) : Ind F → Except PyErr (Series F)
  | .ema w => (Ind.ema w).eval fillna b1
  | .sma w => (Ind.sma w).eval fillna b1
  | .ichimokuB w2 w3 v => (Ind.ichimokuB w2 w3 v).eval fillna b1
  | .kama w p q => .ok (checkFillna fillna (.ser (closes b1)) (KAMA.run (closes b0) w p q fillna))
  | .bbPband w d => .ok { BB.new (closes b0) w d fillna with close := closes b1 }.bollingerPband
  | .bbHi w d => .ok { BB.new (closes b0) w d fillna with close := closes b1 }.bollingerHbandIndicator
  | .bbLi w d => .ok { BB.new (closes b0) w d fillna with close := closes b1 }.bollingerLbandIndicator
  | .kcPband w wa o k => (Keltner.new (highs b0) (lows b0) (closes b0) w wa fillna o k).map ({ · with close := closes b1 }.pband)
  | .kcHi w wa o k => (Keltner.new (highs b0) (lows b0) (closes b0) w wa fillna o k).map ({ · with close := closes b1 }.hbandIndicator)
  | .kcLi w wa o k => (Keltner.new (highs b0) (lows b0) (closes b0) w wa fillna o k).map ({ · with close := closes b1 }.lbandIndicator)
  | .dcWband w off => (Donchian.new (highs b0) (lows b0) (closes b0) w off fillna).map ({ · with close := closes b1 }.wband)
  | .dcPband w off => (Donchian.new (highs b0) (lows b0) (closes b0) w off fillna).map ({ · with close := closes b1 }.pband)
  | x => x.eval fillna b0

set_option maxHeartbeats 1000000 in
theorem late_self (fillna : Bool) (b : List (Bar F)) (x : Ind F) : x.late fillna b b = x.eval fillna b := by
  cases x
  all_goals try rfl
  case kcPband w wa o k | kcHi w wa o k | kcLi w wa o k => 
    simp only [Ind.late, Ind.eval]
    cases o
    · rw [Keltner.new_atr_eq]
      split_ifs <;> rfl
    · rw [Keltner.new_original_eq]
      split_ifs <;> rfl
  case dcWband w off | dcPband w off => 
    simp only [Ind.late, Ind.eval, Donchian.new_eq]
    split_ifs <;> rfl

/-- An object built from `b0` and asked when the columns hold `b1`: the statement for one class. -/
def Late (o : Obj F) : Prop := ∀ (fillna : Bool) (b0 b1 : List (Bar F)), b1.length = b0.length → ∀ (outs : List (Ind F × Ret F)), ∀ x ∈ o.outputs,
  (o.init fillna b0 >>= fun a => World.ask fillna ⟨b1, a, outs⟩ x) = x.late fillna b0 b1

local macro "late1" : tactic => `(tactic| (intro fillna b0 b1 hl outs x hx; simp only [Obj.outputs, List.mem_cons, List.not_mem_nil, or_false] at hx; subst hx))
local macro "late2" : tactic => `(tactic| (intro fillna b0 b1 hl outs x hx; simp only [Obj.outputs, List.mem_cons, List.not_mem_nil, or_false] at hx; rcases hx with h | h <;> subst h))
local macro "late3" : tactic => `(tactic| (intro fillna b0 b1 hl outs x hx; simp only [Obj.outputs, List.mem_cons, List.not_mem_nil, or_false] at hx; rcases hx with h | h | h <;> subst h))
local macro "late_simp" : tactic => `(tactic| simp only [Obj.init, ok_bind, pure_ok, chk_bind, guard_bind, map_guard, World.ask, Ind.call, ask_out, ask_hnew, ask_new, ask_map_new, attr_zero, attr_one, attr_two, Ind.late, Ind.eval])

theorem late_uo : ∀ w1 w2 w3 x y z, Late (F := F) (.uo w1 w2 w3 x y z) := by
  intro w1 w2 w3 x y z
  late1
  late_simp
  try rfl

theorem late_kama : ∀ w p q, Late (F := F) (.kama w p q) := by
  intro w p q
  late1
  late_simp
  try rfl

theorem late_roc : ∀ w, Late (F := F) (.roc w) := by
  intro w
  late1
  late_simp
  try rfl

theorem late_ao : ∀ w1 w2, Late (F := F) (.ao w1 w2) := by
  intro w1 w2
  late1
  late_simp
  try rfl

theorem late_williamsR : ∀ w, Late (F := F) (.williamsR w) := by
  intro w
  late1
  late_simp
  try rfl

theorem late_wma : ∀ w, Late (F := F) (.wma w) := by
  intro w
  late1
  late_simp
  try rfl

theorem late_dpo : ∀ w, Late (F := F) (.dpo w) := by
  intro w
  late1
  late_simp
  try rfl

theorem late_cci : ∀ w k, Late (F := F) (.cci w k) := by
  intro w k
  late1
  late_simp
  try rfl

theorem late_adi : Late (F := F) .adi := by
  late1
  late_simp
  try rfl

theorem late_obv : Late (F := F) .obv := by
  late1
  late_simp
  try rfl

theorem late_cmf : ∀ w, Late (F := F) (.cmf w) := by
  intro w
  late1
  late_simp
  try rfl

theorem late_vpt : ∀ s, Late (F := F) (.vpt s) := by
  intro s
  late1
  late_simp
  try rfl

theorem late_mfi : ∀ w, Late (F := F) (.mfi w) := by
  intro w
  late1
  late_simp
  try rfl

theorem late_vwap : ∀ w, Late (F := F) (.vwap w) := by
  intro w
  late1
  late_simp
  try rfl

theorem late_dr : Late (F := F) .dr := by
  late1
  late_simp
  try rfl

theorem late_dlr : Late (F := F) .dlr := by
  late1
  late_simp
  try rfl

theorem late_ema : ∀ w, Late (F := F) (.ema w) := by
  intro w
  late1
  late_simp
  try rfl

theorem late_sma : ∀ w, Late (F := F) (.sma w) := by
  intro w
  late1
  late_simp
  try rfl

theorem late_rsi : ∀ w, Late (F := F) (.rsi w) := by
  intro w
  late1
  late_simp
  rfl

theorem late_nvi : Late (F := F) .nvi := by
  late1
  late_simp
  rfl

theorem late_cr : Late (F := F) .cr := by
  late1
  late_simp
  rfl

theorem late_atr : ∀ w, Late (F := F) (.atr w) := by
  intro w
  late1
  late_simp
  rfl

theorem late_tsi : ∀ s f, Late (F := F) (.tsi s f) := by
  intro s f
  late1
  late_simp
  simp only [TA.tsi, pure_ok]

theorem late_trix : ∀ w, Late (F := F) (.trix w) := by
  intro w
  late1
  late_simp
  simp only [TA.trix, pure_ok]

theorem late_massIndex : ∀ f s, Late (F := F) (.massIndex f s) := by
  intro f s
  late1
  late_simp
  simp only [TA.massIndex, pure_ok]

theorem late_fi : ∀ w, Late (F := F) (.fi w) := by
  intro w
  late1
  late_simp
  simp only [TA.forceIndex, pure_ok]

theorem late_ulcer : ∀ w, Late (F := F) (.ulcer w) := by
  intro w
  late1
  late_simp
  simp only [TA.ulcerIndex, pure_ok]

theorem late_stc : ∀ s f c a b, Late (F := F) (.stc s f c a b) := by
  intro s f c a b
  late1
  late_simp
  simp only [TA.stc, pure_ok]

theorem late_stoch : ∀ w s, Late (F := F) (.stoch w s) := by
  intro w s
  late2 <;> late_simp <;> rfl

theorem late_eom : ∀ w, Late (F := F) (.eom w) := by
  intro w
  late2 <;> late_simp <;> rfl

theorem late_vortex : ∀ w, Late (F := F) (.vortex w) := by
  intro w
  late3 <;> late_simp <;> rfl

theorem late_kst : ∀ p n, Late (F := F) (.kst p n) := by
  intro p n
  late3 <;> late_simp <;> rfl

theorem late_ppo : ∀ s f g, Late (F := F) (.ppo s f g) := by
  intro s f g
  late3 <;> late_simp <;> simp only [PPO.new_eq, map_guard, guard_bind, attr_zero, attr_one, attr_two] <;> rfl

theorem late_pvo : ∀ s f g, Late (F := F) (.pvo s f g) := by
  intro s f g
  late3 <;> late_simp <;> simp only [PPO.new_eq, map_guard, guard_bind, attr_zero, attr_one, attr_two] <;> rfl

theorem late_macd : ∀ s f g, Late (F := F) (.macd s f g) := by
  intro s f g
  late3 <;> late_simp <;> simp only [MACD.new_eq, map_guard, guard_bind, attr_zero, attr_one, attr_two] <;> rfl

theorem late_stochrsi : ∀ w a b, Late (F := F) (.stochrsi w a b) := by
  intro w a b
  late3 <;> late_simp <;> simp only [StochRSI.new_eq, map_guard, guard_bind, attr_zero, attr_one, attr_two] <;> rfl

theorem late_aroon : ∀ w, Late (F := F) (.aroon w) := by
  intro w
  late3 <;> late_simp <;> simp only [Aroon.new, map_guard, guard_bind, attr_zero, attr_one, attr_two] <;> rfl


theorem late_ichimoku : ∀ w1 w2 w3 v, Late (F := F) (.ichimoku w1 w2 w3 v) := by
  intro w1 w2 w3 v fillna b0 b1 hl outs x hx
  simp only [Obj.outputs, List.mem_cons, List.not_mem_nil, or_false] at hx
  rcases hx with rfl | rfl | rfl | rfl <;> late_simp <;> rfl

theorem late_psar : ∀ s m, Late (F := F) (.psar s m) := by
  intro s m fillna b0 b1 hl outs x hx
  simp only [Obj.outputs, List.mem_cons, List.not_mem_nil, or_false] at hx
  rcases hx with rfl | rfl | rfl | rfl | rfl <;> late_simp <;> simp only [PSAR.new, map_guard, guard_bind, attr_zero, attr_one, attr_two] <;> rfl

theorem late_adx : ∀ w, Late (F := F) (.adx w) := by
  intro w fillna b0 b1 hl outs x hx
  simp only [Obj.outputs, List.mem_cons, List.not_mem_nil, or_false] at hx
  have hn : (closes b0).length = b0.length := by simp
  rcases hx with rfl | rfl | rfl <;> late_simp
  all_goals cases h : ADX.new (highs b0) (lows b0) (closes b0) w fillna with
    | error _ => rfl
    | ok o => 
      obtain ⟨-, -, rfl⟩ := ADX.new_ok h
      simp only [ok_map, ok_bind, adxObj, hl, attr_zero, attr_one, attr_two, ADX.run, hn]

theorem late_bollinger : ∀ w d, Late (F := F) (.bollinger w d) := by
  intro w d fillna b0 b1 hl outs x hx
  simp only [Obj.outputs, List.mem_cons, List.not_mem_nil, or_false] at hx
  rcases hx with rfl | rfl | rfl | rfl | rfl | rfl | rfl <;> late_simp <;> simp only [bbOf, BB.new, BB.bollingerMavg, BB.bollingerHband,
    BB.bollingerLband, BB.bollingerWband, BB.bollingerPband, BB.bollingerHbandIndicator, BB.bollingerLbandIndicator, attr_zero, attr_one, attr_two]

theorem keltner_fillna {h l c : Series F} {w wa : Nat} {b o : Bool} {k : F} {r : Keltner F} (hr : Keltner.new h l c w wa b o k = .ok r) : r.fillna = b := by
  cases o
  · rw [Keltner.new_atr_eq] at hr
    split_ifs at hr
    rw [← Except.ok.inj hr]
    rfl
  · rw [Keltner.new_original_eq] at hr
    split_ifs at hr
    rw [← Except.ok.inj hr]
    rfl

theorem late_keltner : ∀ w a o m, Late (F := F) (.keltner w a o m) := by
  intro w a o m fillna b0 b1 hl outs x hx
  simp only [Obj.outputs, List.mem_cons, List.not_mem_nil, or_false] at hx
  rcases hx with rfl | rfl | rfl | rfl | rfl | rfl | rfl <;> late_simp
  all_goals cases h : Keltner.new (highs b0) (lows b0) (closes b0) w a fillna o m with
    | error _ => rfl
    | ok r => 
      have hf := keltner_fillna h
      simp only [ok_map, ok_bind, kcOf, Keltner.mband, Keltner.hband, Keltner.lband, Keltner.wband, Keltner.pband, Keltner.hbandIndicator,
        Keltner.lbandIndicator, attr_zero, attr_one, attr_two, hf]

theorem late_donchian : ∀ w off, Late (F := F) (.donchian w off) := by
  intro w off fillna b0 b1 hl outs x hx
  simp only [Obj.outputs, List.mem_cons, List.not_mem_nil, or_false] at hx
  by_cases h0 : off = 0
  · subst h0
    rcases hx with rfl | rfl | rfl | rfl | rfl <;> late_simp <;> simp only [Donchian.new_eq, map_guard, guard_bind, ne_eq, not_true_eq_false, if_false,
      ask_out, ask_new, dcOf, Donchian.hband, Donchian.lband, Donchian.mband, Donchian.wband, Donchian.pband, Donchian.off, attr_zero, attr_one]
  · rcases hx with rfl | rfl | rfl | rfl | rfl <;> late_simp <;> simp only [Donchian.new_eq, map_guard, guard_bind, ne_eq, h0, not_false_eq_true, if_true,
      ask_out, ask_new, dcOf, Donchian.hband, Donchian.lband, Donchian.mband, Donchian.wband, Donchian.pband, Donchian.off, attr_zero, attr_one]

theorem late_all (o : Obj F) : Late o := by
  cases o
  case rsi => apply late_rsi
  case tsi => apply late_tsi
  case uo => apply late_uo
  case stoch => apply late_stoch
  case kama => apply late_kama
  case roc => apply late_roc
  case ao => apply late_ao
  case williamsR => apply late_williamsR
  case stochrsi => apply late_stochrsi
  case ppo => apply late_ppo
  case pvo => apply late_pvo
  case aroon => apply late_aroon
  case macd => apply late_macd
  case ema => apply late_ema
  case sma => apply late_sma
  case wma => apply late_wma
  case trix => apply late_trix
  case massIndex => apply late_massIndex
  case ichimoku => apply late_ichimoku
  case kst => apply late_kst
  case dpo => apply late_dpo
  case cci => apply late_cci
  case adx => apply late_adx
  case vortex => apply late_vortex
  case psar => apply late_psar
  case stc => apply late_stc
  case atr => apply late_atr
  case bollinger => apply late_bollinger
  case keltner => apply late_keltner
  case donchian => apply late_donchian
  case ulcer => apply late_ulcer
  case adi => exact late_adi
  case obv => exact late_obv
  case cmf => apply late_cmf
  case fi => apply late_fi
  case eom => apply late_eom
  case vpt => apply late_vpt
  case nvi => exact late_nvi
  case mfi => apply late_mfi
  case vwap => apply late_vwap
  case dr => exact late_dr
  case dlr => exact late_dlr
  case cr => exact late_cr

/-! ## Histories -/

theorem overwritten_length (b : List (Bar F)) (h : List (Ev F)) : (overwritten b h).length = b.length := by
  induction h generalizing b with
  | nil => rfl
  | cons e h ih => cases e <;> simp [overwritten, ih]

/-- the Series handed out that share the object's arrays are the announced ones -/
def World.Ok (fillna : Bool) (w : World F) : Prop := ∀ p ∈ w.outs, ∀ k, p.2 = .own k → fillna = false ∧ p.1.fresh = false

theorem step_ok {fillna : Bool} {w : World F} (hw : w.Ok fillna) (e : Ev F) : (w.step fillna e).Ok fillna := by
  cases e with
  | input i r => exact hw
  | call x =>
    simp only [World.step]
    split
    next r hr =>
      intro p hp k hk
      simp only [List.mem_append, List.mem_singleton] at hp
      rcases hp with hp | rfl
      · exact hw p hp k hk
      · exact call_own (hr.trans (congrArg Except.ok hk))
    next => exact hw
  | poke j i v =>
    simp only [World.step]
    split
    next => exact hw
    next x s hs =>
      intro p hp k hk
      rcases List.mem_or_eq_of_mem_set hp with hp | rfl
      · exact hw p hp k hk
      · cases hk
    next => exact hw

/-- Outside the Series they share, the caller cannot change an array of the object. -/
theorem step_attrs {fillna : Bool} {w : World F} (hw : w.Ok fillna) (e : Ev F)
    (he : ∀ j i v, e = .poke j i v → fillna = true ∨ ∀ p, w.outs[j]? = some p → p.1.fresh = true) : (w.step fillna e).attrs = w.attrs := by
  cases e with
  | input i r => rfl
  | call x => simp only [World.step]; split <;> rfl
  | poke j i v =>
    simp only [World.step]
    split
    next x k hk =>
      obtain ⟨h1, h2⟩ := hw (x, .own k) (List.mem_of_getElem? hk) k rfl
      rcases he j i v rfl with h | h
      · rw [h1] at h; cases h
      · have := h _ hk
        rw [h2] at this; cases this
    next => rfl
    next => rfl

theorem step_bars (fillna : Bool) (w : World F) (e : Ev F) (h : List (Ev F)) : overwritten w.bars (e :: h) = overwritten (w.step fillna e).bars h := by
  cases e with
  | input i r => rfl
  | call x => simp only [World.step, overwritten]; split <;> rfl
  | poke j i v => simp only [World.step, overwritten]; split <;> rfl

theorem after_tidy {fillna : Bool} (h : List (Ev F)) : ∀ {w : World F}, w.Ok fillna → Tidy fillna w h →
    (w.after fillna h).attrs = w.attrs ∧ (w.after fillna h).bars = overwritten w.bars h ∧ (w.after fillna h).Ok fillna := by
  induction h with
  | nil => exact fun hw _ => ⟨rfl, rfl, hw⟩
  | cons e h ih =>
    intro w hw ht
    obtain ⟨a, b, c⟩ := ih (step_ok hw e) ht.2
    exact ⟨a.trans (step_attrs hw e ht.1), b.trans (step_bars fillna w e h).symm, c⟩

theorem start_ok (fillna : Bool) (b : List (Bar F)) (a : List (Series F)) : (World.start b a).Ok fillna := by
  intro p hp
  cases hp

/-- What a call returns after a tidy history. -/
theorem ask_after {o : Obj F} {fillna : Bool} {b : List (Bar F)} {a : List (Series F)} (hi : o.init fillna b = .ok a) {h : List (Ev F)}
    (ht : Tidy fillna (World.start b a) h) {x : Ind F} (hx : x ∈ o.outputs) :
    ((World.start b a).after fillna h).ask fillna x = x.late fillna b (overwritten b h) := by
  obtain ⟨h1, h2, -⟩ := after_tidy h (start_ok fillna b a) ht
  have := late_all o fillna b (overwritten b h) (overwritten_length b h) ((World.start b a).after fillna h).outs x hx
  rw [hi, ok_bind] at this
  rw [← this]
  unfold World.ask
  rw [h1, h2]
  refine congrArg₂ Except.map (funext fun r => ?_) rfl
  cases r
  · show attr _ _ = attr _ _
    rw [h1]; rfl
  · rfl

set_option maxHeartbeats 1000000 in
theorem late_snapshot (fillna : Bool) (b now : List (Bar F)) (x : Ind F) (e : x.timing = .snapshot) : x.late fillna b now = x.eval fillna b := by
  cases x
  all_goals first | (simp only [Ind.timing, reduceCtorEq] at e; done) | rfl

theorem late_live (fillna : Bool) (b now : List (Bar F)) (x : Ind F) (e : x.timing = .live) : x.late fillna b now = x.eval fillna now := by
  cases x
  all_goals first | (simp only [Ind.timing, reduceCtorEq] at e; done) | rfl

theorem timing_fill {x : Ind F} (e : x.timing = .fill) : ∃ w p q, x = .kama w p q := by
  cases x
  all_goals first | (simp only [Ind.timing, reduceCtorEq] at e; done) | exact ⟨_, _, _, rfl⟩

/-- C90. Let `o` be any of the 43 objects, built on the rows `b`. Whatever the caller then does to the input columns and to Series of their own, and
however often they call methods in between: an output marked `snapshot` is always the one of the rows `b`; an output marked `live` is always the one
of the present rows; KAMA without fill is a snapshot, and with fill differs from the one of `b` only in rows that were filled with the close, where it shows
the present close. -/
theorem object_timing {o : Obj F} {fillna : Bool} {b : List (Bar F)} {a : List (Series F)} (hi : o.init fillna b = .ok a) {h : List (Ev F)}
    (ht : Tidy fillna (World.start b a) h) {x : Ind F} (hx : x ∈ o.outputs) :
    let now := overwritten b h
    let w := (World.start b a).after fillna h
    (x.timing = .snapshot → w.ask fillna x = x.eval fillna b) ∧
    (x.timing = .live → w.ask fillna x = x.eval fillna now) ∧
    (x.timing = .fill → fillna = false → w.ask fillna x = x.eval fillna b) ∧
    (x.timing = .fill → ∃ s t, w.ask fillna x = .ok s ∧ x.eval fillna b = .ok t ∧ s.length = b.length ∧ t.length = b.length ∧
      ∀ i < b.length, ix s i = ix t i ∨ ix t i = ix (closes b) i ∧ ix s i = ix (closes now) i) := by
  intro now w
  have key : w.ask fillna x = x.late fillna b now := ask_after hi ht hx
  refine ⟨fun e => ?_, fun e => ?_, fun e f => ?_, fun e => ?_⟩
  · rw [key, late_snapshot _ _ _ _ e]
  · rw [key, late_live _ _ _ _ e]
  · obtain ⟨wd, p, q, rfl⟩ := timing_fill e
    rw [key]
    subst f
    rfl
  · obtain ⟨wd, p, q, rfl⟩ := timing_fill e
    rw [key]
    have hl : (KAMA.run (closes b) wd p q fillna).length = b.length := by simp [KAMA.run]
    cases fillna
    · exact ⟨_, _, rfl, rfl, hl, hl, fun i _ => .inl rfl⟩
    · have hl2 : (ffill (replaceInf (KAMA.run (closes b) wd p q true))).length = b.length := by simp [replaceInf, ffill, hl]
      refine ⟨_, _, rfl, rfl, ?_, ?_, fun i hi => ?_⟩
      · simp [checkFillna, fillSer, zip2, hl2]
      · simp [kama, checkFillna, fillSer, zip2, hl2]
      · simp only [kama, checkFillna, if_true, fillSer]
        rw [ix_zip2 (by omega), ix_zip2 (by omega)]
        split_ifs with hn
        · exact .inr ⟨rfl, rfl⟩
        · exact .inl rfl

/-- C90. The remaining eight outputs mix two times: the lines of the channel are the ones of the rows `b`, the closes compared with them the present ones.
Bollinger bands. -/
theorem bollinger_mixed {wd : Nat} {d : F} {b : List (Bar F)} {a : List (Series F)} (hi : (Obj.bollinger wd d).init false b = .ok a) {h : List (Ev F)}
    (ht : Tidy false (World.start b a) h) :
    let c := closes (overwritten b h)
    let w := (World.start b a).after false h
    ∃ H L P U D, (Ind.bbHband wd d).eval false b = .ok H ∧ (Ind.bbLband wd d).eval false b = .ok L ∧ w.ask false (.bbPband wd d) = .ok P ∧
      w.ask false (.bbHi wd d) = .ok U ∧ w.ask false (.bbLi wd d) = .ok D ∧ ∀ i < b.length,
      ix P i = (ix c i -. ix L i) /. (if ix H i !=. ix L i then ix H i -. ix L i else nan) ∧
      ix U i = (if ix c i >. ix H i then lit 1 else lit 0) ∧ ix D i = if ix c i <. ix L i then lit 1 else lit 0 := by
  intro c w
  have hc : c.length = b.length := by simp [c, overwritten_length]
  have hH : (BB.new (closes b) wd d false).hband.length = b.length := by simp [BB.new, sadd, zip2, rollMean, roll]
  refine ⟨_, _, _, _, _, rfl, rfl, ask_after hi ht (by simp [Obj.outputs]), ask_after hi ht (by simp [Obj.outputs]),
    ask_after hi ht (by simp [Obj.outputs]), fun i hl => ⟨?_, ?_, ?_⟩⟩
  · show ix (sdiv (ssub c _) (zip2 _ _ _)) i = _
    unfold sdiv ssub
    rw [ix_zip2 (by simp [zip2]; omega), ix_zip2 (by omega), ix_zip2 (show i < (BB.new (closes b) wd d false).hband.length by omega)]
    rfl
  · show ix (gtFlag c _) i = _
    unfold gtFlag
    rw [ix_zip2 (by omega)]
    rfl
  · show ix (ltFlag c _) i = _
    unfold ltFlag
    rw [ix_zip2 (by omega)]
    rfl

/-- C90. The Keltner channel. -/
theorem keltner_mixed {wd wa : Nat} {o : Bool} {m : F} {b : List (Bar F)} {a : List (Series F)} (hi : (Obj.keltner wd wa o m).init false b = .ok a)
    {h : List (Ev F)} (ht : Tidy false (World.start b a) h) :
    let c := closes (overwritten b h)
    let w := (World.start b a).after false h
    ∃ H L P U D, (Ind.kcHband wd wa o m).eval false b = .ok H ∧ (Ind.kcLband wd wa o m).eval false b = .ok L ∧
      w.ask false (.kcPband wd wa o m) = .ok P ∧ w.ask false (.kcHi wd wa o m) = .ok U ∧ w.ask false (.kcLi wd wa o m) = .ok D ∧ ∀ i < b.length,
      ix P i = (ix c i -. ix L i) /. (ix H i -. ix L i) ∧
      ix U i = (if ix c i >. ix H i then lit 1 else lit 0) ∧ ix D i = if ix c i <. ix L i then lit 1 else lit 0 := by
  intro c w
  have hc : c.length = b.length := by simp [c, overwritten_length]
  have h1 := ask_after hi ht (x := .kcPband wd wa o m) (by simp [Obj.outputs])
  have h2 := ask_after hi ht (x := .kcHi wd wa o m) (by simp [Obj.outputs])
  have h3 := ask_after hi ht (x := .kcLi wd wa o m) (by simp [Obj.outputs])
  simp only [Ind.late] at h1 h2 h3
  have e1 : (Ind.kcHband wd wa o m).eval false b = (Keltner.new (highs b) (lows b) (closes b) wd wa false o m).map (·.hband) := rfl
  have e2 : (Ind.kcLband wd wa o m).eval false b = (Keltner.new (highs b) (lows b) (closes b) wd wa false o m).map (·.lband) := rfl
  cases hk : Keltner.new (highs b) (lows b) (closes b) wd wa false o m with
  | error e =>
    have : (Obj.keltner wd wa o m).init false b = .error e := by
      simp only [Obj.init, hk]; rfl
    rw [this] at hi
    cases hi
  | ok r =>
    have hf := keltner_fillna hk
    have hH : r.tpHigh.length = b.length := by
      have := row_for_row (.kcHband wd wa o m) false b r.hband (e1.trans (by rw [hk]; rfl))
      rwa [Keltner.hband, hf] at this
    rw [hk] at h1 h2 h3 e1 e2
    refine ⟨_, _, _, _, _, e1, e2, h1, h2, h3, fun i hl => ?_⟩
    simp only [Keltner.hband, Keltner.lband, Keltner.pband, Keltner.hbandIndicator, Keltner.lbandIndicator, hf, checkFillna, Bool.false_eq_true, if_false,
      gtFlag, ltFlag, sdiv, ssub]
    have hz : (zip2 (fun x y => x -. y) c r.tpLow).length = b.length := by simp [zip2, hc]
    refine ⟨?_, ix_zip2 (by simpa [overwritten_length] using hl), ix_zip2 (by simpa [overwritten_length] using hl)⟩
    rw [ix_zip2 (by simp [zip2, overwritten_length]; omega), ix_zip2 (by simpa [overwritten_length] using hl), ix_zip2 (by omega)]

/-- C90. The Donchian channel. -/
theorem donchian_mixed {wd : Nat} {b : List (Bar F)} {a : List (Series F)} (hi : (Obj.donchian wd 0).init false b = .ok a) {h : List (Ev F)}
    (ht : Tidy false (World.start b a) h) :
    let c := closes (overwritten b h)
    let w := (World.start b a).after false h
    ∃ H L M P W, (Ind.dcHband wd 0).eval false b = .ok H ∧ (Ind.dcLband wd 0).eval false b = .ok L ∧ (Ind.sma wd).eval false (overwritten b h) = .ok M ∧
      w.ask false (.dcPband wd 0) = .ok P ∧ w.ask false (.dcWband wd 0) = .ok W ∧ ∀ i < b.length,
      ix P i = (ix c i -. ix L i) /. (ix H i -. ix L i) ∧ ix W i = ((ix H i -. ix L i) /. ix M i) *. lit 100 := by
  intro c w
  have hc : c.length = b.length := by simp [c, overwritten_length]
  have h1 := ask_after hi ht (x := .dcPband wd 0) (by simp [Obj.outputs])
  have h2 := ask_after hi ht (x := .dcWband wd 0) (by simp [Obj.outputs])
  have e1 : (Ind.dcHband wd 0).eval false b = (Donchian.new (highs b) (lows b) (closes b) wd 0 false).map (·.hband) := rfl
  have e2 : (Ind.dcLband wd 0).eval false b = (Donchian.new (highs b) (lows b) (closes b) wd 0 false).map (·.lband) := rfl
  simp only [Ind.late] at h1 h2
  simp only [Donchian.new_eq, Bool.false_eq_true, false_and, if_false, ok_map] at h1 h2 e1 e2
  refine ⟨_, _, _, _, _, e1, e2, rfl, h1, h2, fun i hl => ?_⟩
  simp only [Donchian.hband, Donchian.lband, Donchian.pband, Donchian.wband, Donchian.off, ne_eq, not_true_eq_false, checkFillna, Bool.false_eq_true, if_false,
    sdiv, ssub, mulc, smaIndicator, sma, minp]
  have hH : (rollMax wd wd (highs b)).length = b.length := by simp [rollMax, roll]
  constructor
  · rw [ix_zip2 (by simp [zip2, overwritten_length]; omega), ix_zip2 (by simpa [overwritten_length] using hl), ix_zip2 (by omega)]
  · rw [ix_map (by simp [zip2]; omega), ix_zip2 (by simp [zip2]; omega), ix_zip2 (by omega)]

theorem step_outs {fillna : Bool} {w : World F} (e : Ev F) {j : Nat} {p : Ind F × Ret F} (hj : w.outs[j]? = some p) (he : ∀ i v, e ≠ .poke j i v) :
    (w.step fillna e).outs[j]? = some p := by
  cases e with
  | input i r => exact hj
  | call x =>
    simp only [World.step]
    split
    · rw [List.getElem?_append_left (List.getElem?_eq_some_iff.mp hj).1]; exact hj
    · exact hj
  | poke k i v =>
    simp only [World.step]
    split
    · exact hj
    · rw [List.getElem?_set_ne (fun g => he i v (by rw [g]))]; exact hj
    · exact hj

theorem after_outs {fillna : Bool} (h : List (Ev F)) : ∀ {w : World F} {j : Nat} {p : Ind F × Ret F}, w.outs[j]? = some p →
    (∀ e ∈ h, ∀ i v, e ≠ .poke j i v) → (w.after fillna h).outs[j]? = some p := by
  induction h with
  | nil => exact fun hj _ => hj
  | cons e h ih =>
    intro w j p hj he
    exact ih (step_outs e hj (he e List.mem_cons_self)) fun e' m => he e' (List.mem_cons_of_mem _ m)

theorem after_append (fillna : Bool) (w : World F) (h g : List (Ev F)) : w.after fillna (h ++ g) = (w.after fillna h).after fillna g := by
  unfold World.after
  rw [List.foldl_append]

theorem tidy_append {fillna : Bool} {h g : List (Ev F)} : ∀ {w : World F}, Tidy fillna w (h ++ g) → Tidy fillna w h ∧ Tidy fillna (w.after fillna h) g := by
  induction h with
  | nil => exact fun t => ⟨trivial, t⟩
  | cons e h ih =>
    intro w t
    obtain ⟨a, b⟩ := ih t.2
    exact ⟨⟨t.1, a⟩, b⟩

theorem tidy_mk {fillna : Bool} {h g : List (Ev F)} : ∀ {w : World F}, Tidy fillna w h → Tidy fillna (w.after fillna h) g → Tidy fillna w (h ++ g) := by
  induction h with
  | nil => exact fun _ t => t
  | cons e h ih => exact fun t1 t2 => ⟨t1.1, ih t1.2 t2⟩

theorem overwritten_append (b : List (Bar F)) (h g : List (Ev F)) : overwritten b (h ++ g) = overwritten (overwritten b h) g := by
  induction h generalizing b with
  | nil => rfl
  | cons e h ih => cases e <;> exact ih _

/-- C90. A Series handed out keeps its contents while the caller overwrites inputs, calls methods and writes into other Series of their own. -/
theorem result_stable {fillna : Bool} {b : List (Bar F)} {a : List (Series F)} {h g : List (Ev F)} (ht : Tidy fillna (World.start b a) (h ++ g))
    {j : Nat} {p : Ind F × Ret F} (hj : ((World.start b a).after fillna h).outs[j]? = some p) (hg : ∀ e ∈ g, ∀ i v, e ≠ .poke j i v) :
    ((World.start b a).after fillna (h ++ g)).outs[j]? = some p ∧
    ((World.start b a).after fillna (h ++ g)).read p.2 = ((World.start b a).after fillna h).read p.2 := by
  obtain ⟨t1, t2⟩ := tidy_append ht
  obtain ⟨-, -, h1⟩ := after_tidy h (start_ok fillna b a) t1
  obtain ⟨h2, -, -⟩ := after_tidy g h1 t2
  rw [after_append]
  refine ⟨after_outs g hj hg, ?_⟩
  cases p.2 with
  | own k =>
    show attr _ _ = attr _ _
    rw [h2]
  | new s => rfl

/-! ## Writing into a shared Series -/

theorem step_attrs_length (fillna : Bool) (w : World F) (e : Ev F) : (w.step fillna e).attrs.length = w.attrs.length := by
  cases e with
  | input i r => rfl
  | call x => simp only [World.step]; split <;> rfl
  | poke j i v => simp only [World.step]; split <;> simp

theorem after_attrs_length (fillna : Bool) (h : List (Ev F)) : ∀ w : World F, (w.after fillna h).attrs.length = w.attrs.length := by
  induction h with
  | nil => exact fun _ => rfl
  | cons e h ih => exact fun w => (ih _).trans (step_attrs_length fillna w e)

/-- which array is handed out -/
def Ind.slot {F : Type} : Ind F → Nat
  | .stochrsiK .. | .ppoSignal .. | .pvoSignal .. | .aroonDown _ | .macdSignal .. | .ichimokuBase _ | .kstSig .. | .vortexNeg _ | .psarUp .. => 1
  | .bbHband .. | .kcHband .. | .dcLband .. => 1
  | .ppoHist .. | .pvoHist .. | .macdDiff .. | .psarDown .. | .bbLband .. | .kcLband .. => 2
  | _ => 0

theorem call_slot {x : Ind F} (hx : x.fresh = false) (a : List (Series F)) (b : List (Bar F)) : x.call false a b = .ok (.own x.slot) := by
  cases x
  all_goals first | (simp only [Ind.fresh, Bool.true_eq_false] at hx; done) | skip
  case dcHband w off | dcLband w off =>
    have : off = 0 := by simpa [Ind.fresh] using hx
    subst this
    rfl
  all_goals rfl

/-- the number of arrays of an object -/
def Obj.arity {F : Type} : Obj F → Nat
  | .ema _ | .sma _ => 0
  | .stochrsi .. | .aroon _ | .ichimoku .. | .kst .. | .vortex _ | .donchian .. => 2
  | .ppo .. | .pvo .. | .macd .. | .adx _ | .psar .. | .bollinger .. | .keltner .. => 3
  | _ => 1

theorem chk_ok {α : Type} {e : Except PyErr Unit} {k : Except PyErr α} {a : α} (h : (do e; k) = .ok a) : k = .ok a := by
  cases e with
  | error _ => cases h
  | ok _ => exact h

theorem init_arity (o : Obj F) {fillna : Bool} {b : List (Bar F)} {a : List (Series F)} (hi : o.init fillna b = .ok a) : a.length = o.arity := by
  cases o
  all_goals simp only [Obj.init] at hi
  case tsi | trix | massIndex | fi | ulcer | stc =>
    repeat replace hi := chk_ok hi
    rw [← Except.ok.inj hi]
    rfl
  case rsi | nvi | cr | atr =>
    split_ifs at hi
    rw [← Except.ok.inj hi]
    rfl
  case stochrsi | ppo | pvo | macd | aroon | adx | psar | keltner | donchian =>
    obtain ⟨_, _, rfl⟩ := except_map_ok hi
    rfl
  all_goals
    rw [← Except.ok.inj hi]
    rfl

/-- the object has the array that a method of its class hands out -/
theorem slot_lt {o : Obj F} {b : List (Bar F)} {a : List (Series F)} (hi : o.init false b = .ok a) {x : Ind F} (hx : x ∈ o.outputs) (hf : x.fresh = false) :
    x.slot < a.length := by
  rw [init_arity o hi]
  have key : ∀ x ∈ o.outputs, x.fresh = false → x.slot < o.arity := by
    cases o <;> simp [Obj.outputs, Ind.fresh, Ind.slot, Obj.arity]
  exact key x hx hf

/-- C90. Without fill, a Series that is not fresh is the object's own: after the caller writes `v` into row `i` of what `x` returned, a further call of `x`
returns the changed Series. -/
theorem shared_write {o : Obj F} {b : List (Bar F)} {a : List (Series F)} (hi : o.init false b = .ok a) (h : List (Ev F)) {x : Ind F} (hx : x ∈ o.outputs)
    (hf : x.fresh = false) (i : Nat) (v : F) :
    let w := (World.start b a).after false h
    ∃ s, w.ask false x = .ok s ∧ (w.after false [.call x, .poke w.outs.length i v]).ask false x = .ok (s.set i v) := by
  intro w
  have hk : x.slot < w.attrs.length := by
    rw [after_attrs_length]
    exact slot_lt hi hx hf
  refine ⟨attr w.attrs x.slot, ?_, ?_⟩
  · unfold World.ask
    rw [call_slot hf]
    rfl
  · unfold World.ask
    rw [call_slot hf]
    have e1 : w.after false [.call x, .poke w.outs.length i v] = (w.step false (.call x)).step false (.poke w.outs.length i v) := rfl
    have e2 : w.step false (.call x) = { w with outs := w.outs ++ [(x, .own x.slot)] } := by
      simp only [World.step, call_slot hf]
    have e3 : (w.step false (.call x)).step false (.poke w.outs.length i v)
        = { w with outs := w.outs ++ [(x, .own x.slot)], attrs := w.attrs.set x.slot ((attr w.attrs x.slot).set i v) } := by
      rw [e2]
      simp [World.step]
    rw [e1, e3]
    show Except.ok (attr _ _) = _
    simp [attr, hk]

/-- C90. With fill, or for a fresh output, it is not. -/
theorem private_write {o : Obj F} {fillna : Bool} {b : List (Bar F)} {a : List (Series F)} (hi : o.init fillna b = .ok a) {h : List (Ev F)}
    (ht : Tidy fillna (World.start b a) h) {x y : Ind F} (hf : fillna = true ∨ x.fresh = true) (hy : y ∈ o.outputs) (i : Nat) (v : F) :
    let w := (World.start b a).after fillna h
    (w.after fillna [.call x, .poke w.outs.length i v]).ask fillna y = w.ask fillna y := by
  intro w
  have t : Tidy fillna (World.start b a) (h ++ [.call x, .poke w.outs.length i v]) := by
    refine tidy_mk ht ⟨fun _ _ _ e => (by cases e), ⟨fun j i' v' e => ?_, trivial⟩⟩
    rcases hf with hf | hf
    · exact .inl hf
    refine .inr fun p hp => ?_
    cases e
    simp only [World.step] at hp
    split at hp
    · simp only [w, List.getElem?_concat_length, Option.some.injEq] at hp
      rw [← hp]
      exact hf
    · rw [List.getElem?_eq_none (Nat.le_refl _)] at hp
      cases hp
  have h1 := ask_after hi t hy
  rw [after_append] at h1
  rw [h1, ask_after hi ht hy, overwritten_append]
  rfl

/-! ## Witnesses -/

section witnesses
attribute [local instance] toyFn

/-- closes 1, 3 -/
def old2 : List (Bar (Val ℚ)) := [qbar 1 1 1 1, qbar 3 3 3 1]

/-- the caller replaces them with 4, 6 -/
def move2 : List (Ev (Val ℚ)) := [.input 0 (qbar 4 4 4 1), .input 1 (qbar 6 6 6 1)]

/-- `BollingerBands(close, window=2, window_dev=1)` on these closes: middle line, upper and lower band -/
def bands2 : List (Series (Val ℚ)) := [[nan, .fin 2], [nan, .fin 3], [nan, .fin 1]]

example : (Obj.bollinger 2 (lit 1)).init false old2 = .ok bands2 := by decide +kernel

/-- C90. A mixed answer is neither the old nor the new one: after the closes have moved from (1, 3) to (4, 6), an object built before says that the last close is
at 5/2 of the channel and above the upper band, whereas it is at 1 and not above on the old closes and on the new ones. -/
theorem mixed_is_neither :
    (Obj.bollinger 2 (lit 1)).init false old2 = .ok bands2 ∧ Tidy false (World.start old2 bands2) move2 ∧
    (((World.start old2 bands2).after false move2).ask false (.bbPband 2 (lit 1))).map (ix · 1) = .ok (.fin (5 / 2)) ∧
    (((World.start old2 bands2).after false move2).ask false (.bbHi 2 (lit 1))).map (ix · 1) = .ok (.fin 1) ∧
    ∀ b ∈ [old2, overwritten old2 move2], ((Ind.bbPband 2 (lit 1)).eval false b).map (ix · 1) = .ok (.fin 1) ∧
      ((Ind.bbHi 2 (lit 1)).eval false b).map (ix · 1) = .ok (.fin 0) := by
  refine ⟨by decide +kernel, ⟨fun _ _ _ e => (by cases e), fun _ _ _ e => (by cases e), trivial⟩, by decide +kernel, by decide +kernel, ?_⟩
  intro b hb
  simp only [List.mem_cons, List.not_mem_nil, or_false] at hb
  rcases hb with rfl | rfl <;> exact ⟨by decide +kernel, by decide +kernel⟩

/-- bars on which %K is 50, 100 -/
def kBars : List (Bar (Val ℚ)) := [qbar 3 1 2 1, qbar 3 1 3 1]

/-- C90. Writing into a shared Series changes other outputs too: `k = so.stoch(); k[0] = 0` turns the last value of `so.stoch_signal()` from 75 into 50,
though nobody touched the object or the prices. -/
theorem shared_write_spreads :
    ∃ a, (Obj.stoch 1 2).init false kBars = .ok a ∧
    ((World.start kBars a).ask false (.stochSignal 1 2)).map (ix · 1) = .ok (.fin 75) ∧
    (((World.start kBars a).after false [.call (.stoch 1), .poke 0 0 (.fin 0)]).ask false (.stochSignal 1 2)).map (ix · 1) = .ok (.fin 50) :=
  ⟨[[.fin 50, .fin 100]], by decide +kernel, by decide +kernel, by decide +kernel⟩

/-- with `fillna=True` it does not -/
example : (((World.start kBars [[.fin 50, .fin 100]]).after true [.call (.stoch 1), .poke 0 0 (.fin 0)]).ask true (.stochSignal 1 2)).map (ix · 1)
    = .ok (.fin 75) := by decide +kernel

/-- a live output follows the columns, a snapshot does not -/
example : ((World.start old2 []).after false move2).ask false (.sma 2) = .ok [nan, .fin 5] := by decide +kernel
example : ((World.start old2 [[nan, .fin (5 / 3)]]).after false move2).ask false (.wma 2) = .ok [nan, .fin (5 / 3)] := by decide +kernel

end witnesses

end TA
