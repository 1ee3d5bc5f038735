import Verif.Model.Functions
import Verif.Lemmas.Toy

/-! # C68 — the module level functions

Every function is its class: same values, same exceptions, whatever mix of positional and keyword arguments and
omitted ones, except for five functions whose `window` default is not the default of the class. -/

set_option linter.unusedSectionVars false

namespace TA

/-! ## binding -/

section
variable {F : Type} [Flt F] {P : Type} [DecidableEq P]

theorem lookup_eq_none {α : Type} {l : List (P × α)} {p : P} : l.lookup p = none ↔ p ∉ keys l := by
  induction l with
  | nil => simp [keys]
  | cons a l ih =>
    obtain ⟨q, v⟩ := a
    by_cases h : p = q
    · subst h; simp [keys]
    · have : (p == q) = false := by simpa using h
      simp only [List.lookup_cons, this]
      rw [ih]
      simp [keys, h]

theorem lookup_mem {α : Type} {l : List (P × α)} {p : P} {v : α} (h : l.lookup p = some v) : (p, v) ∈ l := by
  induction l with
  | nil => simp at h
  | cons a l ih =>
    obtain ⟨q, u⟩ := a
    by_cases e : p = q
    · subst e; simp at h; simp [h]
    · have : (p == q) = false := by simpa using e
      simp only [List.lookup_cons, this] at h
      exact List.mem_cons_of_mem _ (ih h)

theorem lookup_of_mem {α : Type} {l : List (P × α)} (hn : (keys l).Nodup) {p : P} {v : α} (h : (p, v) ∈ l) :
    l.lookup p = some v := by
  induction l with
  | nil => simp at h
  | cons a l ih =>
    obtain ⟨q, u⟩ := a
    simp only [keys, List.map_cons, List.nodup_cons] at hn
    rcases List.mem_cons.1 h with e | h
    · obtain ⟨rfl, rfl⟩ := Prod.mk.inj e; simp
    · have : p ≠ q := fun e => hn.1 (e ▸ List.mem_map.2 ⟨_, h, rfl⟩)
      have : (p == q) = false := by simpa using this
      simp only [List.lookup_cons, this]
      exact ih hn.2 h

theorem lookup_perm {α : Type} {l l' : List (P × α)} (hn : (keys l).Nodup) (hp : l.Perm l') (p : P) :
    l.lookup p = l'.lookup p := by
  have hn' : (keys l').Nodup := (hp.map Prod.fst).nodup_iff.1 hn
  cases h : l.lookup p with
  | none =>
    symm
    rw [lookup_eq_none] at h ⊢
    exact fun h' => h ((hp.map Prod.fst).mem_iff.2 h')
  | some v => exact (lookup_of_mem hn' (hp.mem_iff.1 (lookup_mem h))).symm

theorem accepts_iff {sig : Sig P} {pos : List (PyVal F)} {kw : List (P × PyVal F)} :
    sig.accepts pos kw = true ↔ pos.length ≤ sig.length ∧ (keys (named sig pos kw)).Nodup ∧
      (∀ p ∈ keys kw, p ∈ keys sig) ∧ ∀ q ∈ sig, q.2 = none → q.1 ∈ keys (named sig pos kw) := by
  unfold Sig.accepts
  simp only [Bool.and_eq_true, decide_eq_true_eq, List.all_eq_true, List.contains_iff_mem, Bool.or_eq_true, and_assoc]
  refine and_congr_right fun _ => and_congr_right fun _ => and_congr_right fun _ => forall_congr' fun q => forall_congr' fun _ => ?_
  cases q.2 <;> simp

/-- keyword arguments may come in any order -/
theorem bind_perm (sig : Sig P) (pos : List (PyVal F)) {kw kw' : List (P × PyVal F)} (h : kw.Perm kw') :
    bind sig pos kw = bind sig pos kw' := by
  have hp : (named sig pos kw).Perm (named sig pos kw') := List.Perm.append_left _ h
  have hnp := hp.map Prod.fst
  have e : sig.accepts pos kw = sig.accepts pos kw' := by
    rw [Bool.eq_iff_iff, accepts_iff, accepts_iff]
    refine and_congr_right fun _ => and_congr hnp.nodup_iff (and_congr ?_ ?_)
    · exact forall_congr' fun p => imp_congr_left (h.map Prod.fst).mem_iff
    · exact forall_congr' fun q => forall_congr' fun _ => imp_congr_right fun _ => hnp.mem_iff
  unfold bind
  rw [← e]
  by_cases ha : sig.accepts pos kw = true
  · rw [if_pos ha, if_pos ha]
    congr 1
    funext p
    rw [lookup_perm (accepts_iff.1 ha).2.1 hp]
  · rw [if_neg ha, if_neg ha]

/-- a positional argument is the same as the keyword argument with the name at its position -/
theorem bind_named (sig : Sig P) (pos : List (PyVal F)) (kw : List (P × PyVal F)) (h : pos.length ≤ sig.length) :
    bind sig pos kw = bind sig [] (named sig pos kw) := by
  have e0 : named sig [] (named sig pos kw) = named sig pos kw := by simp [named]
  have e : sig.accepts pos kw = sig.accepts [] (named sig pos kw) := by
    rw [Bool.eq_iff_iff, accepts_iff, accepts_iff, e0]
    constructor
    · rintro ⟨_, h2, h3, h4⟩
      refine ⟨by simp, h2, fun p hp => ?_, h4⟩
      simp only [named, keys, List.map_append, List.mem_append] at hp
      rcases hp with hp | hp
      · obtain ⟨a, ha, rfl⟩ := List.mem_map.1 hp
        exact (List.of_mem_zip ha).1
      · exact h3 p hp
    · rintro ⟨_, h2, h3, h4⟩
      exact ⟨h, h2, fun p hp => h3 p (by simp only [named, keys, List.map_append, List.mem_append]; exact .inr hp), h4⟩
  unfold bind
  rw [e, e0]

end

section
variable {F : Type} [FltFn F]

/-- C68: keyword arguments of a function may come in any order. -/
theorem fn_kw_order (f : PyFn) (pos : List (PyVal F)) {kw kw' : List (Param × PyVal F)} (h : kw.Perm kw') :
    callFn f pos kw = callFn f pos kw' := by
  unfold callFn
  rw [bind_perm f.sig pos h]

/-- C68: a positional argument is the keyword argument with the name at its position. -/
theorem fn_positional (f : PyFn) (pos : List (PyVal F)) (kw : List (Param × PyVal F)) (h : pos.length ≤ f.sig.length) :
    callFn f pos kw = callFn f [] (named f.sig pos kw) := by
  unfold callFn
  rw [bind_named f.sig pos kw h]

/-! ## functions and classes -/

/-- the parameters whose default in the function is not the default of the class -/
def PyFn.ownDefault : PyFn → List Param
  | .ema_indicator | .sma_indicator | .donchian_channel_mband | .donchian_channel_wband
  | .donchian_channel_pband => [.window]
  | _ => []

/-- what the tables satisfy, checked for every function below -/
structure PyFn.OK (f : PyFn) : Prop where
  passes_nodup : (keys f.passes).Nodup
  passes_known : ∀ p ∈ keys f.passes, p ∈ keys f.cls.sig
  cls_nodup : (keys f.cls.sig).Nodup
  known : ∀ p ∈ keys f.sig, p ∈ keys f.cls.sig
  meth : f.meth.cls = f.cls
  row : ∀ q ∈ f.cls.sig,
    match f.passes.lookup q.1 with
    | some (.var p) => p = q.1 ∧ p ∈ keys f.sig ∧ (p ∈ f.ownDefault ∨ f.sig.default p = f.cls.sig.default p)
    | some (.const l) => q.1 ∉ keys f.sig ∧ f.cls.sig.default q.1 = some l
    | none => q.1 ∉ keys f.sig ∧ q.2 ≠ none

/-- the row condition as a test -/
def PyFn.rowOk (f : PyFn) (q : Param × Option Lit) : Bool :=
  match f.passes.lookup q.1 with
  | some (.var p) => decide (p = q.1 ∧ p ∈ keys f.sig ∧ (p ∈ f.ownDefault ∨ f.sig.default p = f.cls.sig.default p))
  | some (.const l) => decide (q.1 ∉ keys f.sig ∧ f.cls.sig.default q.1 = some l)
  | none => decide (q.1 ∉ keys f.sig ∧ q.2 ≠ none)

theorem PyFn.tables (f : PyFn) : f.OK := by
  have h : decide (keys f.passes).Nodup && decide (∀ p ∈ keys f.passes, p ∈ keys f.cls.sig) &&
      decide (keys f.cls.sig).Nodup && decide (∀ p ∈ keys f.sig, p ∈ keys f.cls.sig) && decide (f.meth.cls = f.cls) &&
      f.cls.sig.all f.rowOk = true := by
    cases f <;> decide +kernel
  simp only [Bool.and_eq_true, decide_eq_true_eq, List.all_eq_true] at h
  obtain ⟨⟨⟨⟨⟨h1, h2⟩, h3⟩, h4⟩, h5⟩, h6⟩ := h
  refine ⟨h1, h2, h3, h4, h5, fun q hq => ?_⟩
  have := h6 q hq
  unfold PyFn.rowOk at this
  split at this <;> exact of_decide_eq_true this

theorem mem_keys {α : Type} {P : Type} {l : List (P × α)} {p : P} : p ∈ keys l ↔ ∃ v, (p, v) ∈ l := by
  simp [keys]

theorem lookup_map {P α β : Type} [DecidableEq P] (g : α → β) (l : List (P × α)) (p : P) :
    (l.map fun a => (a.1, g a.2)).lookup p = (l.lookup p).map g := by
  induction l with
  | nil => rfl
  | cons a l ih =>
    obtain ⟨q, v⟩ := a
    simp only [List.map_cons, List.lookup_cons]
    cases h : p == q with
    | true => rfl
    | false => exact ih

/-- C68: a well formed call of a function is the constructor and method call with the same arguments, provided the
call gives `window` to the five functions of `ownDefault`. -/
theorem fn_as_class (f : PyFn) (pos : List (PyVal F)) (kw : List (Param × PyVal F)) (ha : f.sig.accepts pos kw = true)
    (hd : ∀ p ∈ f.ownDefault, p ∈ keys (named f.sig pos kw)) :
    callFn f pos kw = callCls f.cls f.meth [] (named f.sig pos kw) := by
  obtain ⟨t1, t2, t3, t4, -, t6⟩ := f.tables
  have ha' := accepts_iff.1 ha
  obtain ⟨a1, a2, a3, a4⟩ := ha'
  have hgiven : ∀ p ∈ keys (named f.sig pos kw), p ∈ keys f.sig := by
    intro p hp
    simp only [named, keys, List.map_append, List.mem_append] at hp
    rcases hp with hp | hp
    · obtain ⟨a, ha, rfl⟩ := List.mem_map.1 hp
      exact (List.of_mem_zip ha).1
    · exact a3 p hp
  unfold callFn callCls
  have hb : bind f.sig pos kw = .ok fun p => ((named f.sig pos kw).lookup p).or ((f.sig.default p).map Lit.val) := by
    unfold bind; rw [if_pos ha]
  rw [hb]
  generalize henv : (fun p => ((named f.sig pos kw).lookup p).or ((f.sig.default p).map Lit.val) : Env Param F) = env
  have henv' : ∀ p, env p = ((named f.sig pos kw).lookup p).or ((f.sig.default p).map Lit.val) := fun p => by rw [← henv]
  show (bind f.cls.sig [] (f.passes.map fun a => (a.1, a.2.val env)) >>= f.meth.run) =
    (bind f.cls.sig [] (named f.sig pos kw) >>= f.meth.run)
  congr 1
  generalize hg : named f.sig pos kw = given at *
  have hk : keys (f.passes.map fun a => (a.1, a.2.val env)) = keys f.passes := by simp [keys, Function.comp_def]
  have hn0 : ∀ l : List (Param × PyVal F), named f.cls.sig [] l = l := fun l => by simp [named]
  -- a parameter of the function with no default is given
  have hreq : ∀ p ∈ keys f.sig, f.sig.default p = none → p ∈ keys given := by
    intro p hp hnone
    obtain ⟨v, hv⟩ : ∃ v, f.sig.lookup p = some v := by
      cases h : f.sig.lookup p with
      | none => exact absurd hp (lookup_eq_none.1 h)
      | some v => exact ⟨v, rfl⟩
    have hvn : v = none := by unfold Sig.default at hnone; rw [hv] at hnone; simpa using hnone
    exact a4 (p, v) (lookup_mem hv) hvn
  have hdef : ∀ q ∈ f.cls.sig, f.cls.sig.default q.1 = q.2 := fun q hq => by
    unfold Sig.default
    rw [lookup_of_mem t3 (v := q.2) hq]
    rfl
  have acc1 : f.cls.sig.accepts [] (f.passes.map fun a => (a.1, a.2.val env)) = true := by
    refine accepts_iff.2 ⟨by simp, ?_, ?_, ?_⟩
    · rw [hn0, hk]; exact t1
    · rw [hk]; exact t2
    · intro q hq hq2
      rw [hn0, hk]
      have hr := t6 q hq
      by_contra hc
      rw [lookup_eq_none.2 hc] at hr
      exact hr.2 hq2
  have acc2 : f.cls.sig.accepts [] given = true := by
    refine accepts_iff.2 ⟨by simp, ?_, ?_, ?_⟩
    · rw [hn0]; exact a2
    · exact fun p hp => t4 p (hgiven p hp)
    · intro q hq hq2
      rw [hn0]
      have hr := t6 q hq
      split at hr
      · obtain ⟨rfl, hs, ho⟩ := hr
        rcases ho with ho | ho
        · exact hd _ ho
        · exact hreq _ hs (by rw [ho, hdef q hq, hq2])
      · rw [hdef q hq, hq2] at hr; exact absurd hr.2 (by simp)
      · exact absurd hq2 hr.2
  unfold bind
  rw [if_pos acc1, if_pos acc2, hn0, hn0]
  congr 1
  funext p
  rw [lookup_map (fun a : Arg Param => a.val env)]
  by_cases hp : p ∈ keys f.cls.sig
  · obtain ⟨d, hq⟩ := mem_keys.1 hp
    have hr := t6 (p, d) hq
    simp only at hr
    split at hr <;> rename_i e <;> rw [e]
    · obtain ⟨rfl, hs, ho⟩ := hr
      simp only [Option.map_some, Arg.val, henv']
      cases hl : given.lookup _ with
      | some v => rfl
      | none =>
        have hng := lookup_eq_none.1 hl
        have ho := ho.resolve_left fun h => hng (hd _ h)
        rw [← ho]
        cases hfd : f.sig.default _ with
        | none => exact absurd (hreq _ hs hfd) hng
        | some l => rfl
    · obtain ⟨hs, ho⟩ := hr
      rw [ho, lookup_eq_none.2 fun h => hs (hgiven p h)]
      rfl
    · rw [lookup_eq_none.2 fun h => hr.1 (hgiven p h)]
      rfl
  · rw [lookup_eq_none.2 fun h => hp (t2 p h), lookup_eq_none.2 fun h => hp (t4 p (hgiven p h))]
    rfl

/-- C68: a malformed call raises `TypeError` (also in the class, if the class has no further parameter). -/
theorem fn_type_error (f : PyFn) (pos : List (PyVal F)) (kw : List (Param × PyVal F)) (ha : f.sig.accepts pos kw = false) :
    callFn f pos kw = .error .typeError := by
  unfold callFn bind
  rw [ha]
  rfl

/-! ## what each function computes -/

/-- shorthands for arguments -/
def hi (b : List (Bar F)) : PyVal F := .ser (highs b)
def lo (b : List (Bar F)) : PyVal F := .ser (lows b)
def cl (b : List (Bar F)) : PyVal F := .ser (closes b)
def vo (b : List (Bar F)) : PyVal F := .ser (volumes b)
def int (n : Nat) : PyVal F := .int n
def optInt : Option Nat → PyVal F
  | none => .none
  | some n => .int n

/-- `Computes fillna b f args ind`: `f(*args)` is meant to be the output `ind` of the catalogue on the bars `b`.  The order
of the arguments is that of the signature; parameters that do not reach the output are arbitrary. -/
inductive Computes (fillna : Bool) (b : List (Bar F)) : PyFn → List (PyVal F) → Ind F → Prop
  | rsi (w : Nat) : Computes fillna b .rsi [cl b, int w, .bool fillna] (.rsi w)
  | tsi (a c : Nat) : Computes fillna b .tsi [cl b, int a, int c, .bool fillna] (.tsi a c)
  | ultimate_oscillator (a c d : Nat) (x y z : F) :
      Computes fillna b .ultimate_oscillator
        [hi b, lo b, cl b, int a, int c, int d, .num x, .num y, .num z, .bool fillna]
        (.uo a c d x y z)
  | stoch (w s : Nat) : Computes fillna b .stoch [hi b, lo b, cl b, int w, int s, .bool fillna] (.stoch w)
  | stoch_signal (w s : Nat) :
      Computes fillna b .stoch_signal [hi b, lo b, cl b, int w, int s, .bool fillna] (.stochSignal w s)
  | williams_r (w : Nat) : Computes fillna b .williams_r [hi b, lo b, cl b, int w, .bool fillna] (.williamsR w)
  | awesome_oscillator (a c : Nat) :
      Computes fillna b .awesome_oscillator [hi b, lo b, int a, int c, .bool fillna] (.ao a c)
  | kama (w a c : Nat) : Computes fillna b .kama [cl b, int w, int a, int c, .bool fillna] (.kama w a c)
  | roc (w : Nat) : Computes fillna b .roc [cl b, int w, .bool fillna] (.roc w)
  | stochrsi (w a c : Nat) : Computes fillna b .stochrsi [cl b, int w, int a, int c, .bool fillna] (.stochrsi w a c)
  | stochrsi_k (w a c : Nat) :
      Computes fillna b .stochrsi_k [cl b, int w, int a, int c, .bool fillna] (.stochrsiK w a c)
  | stochrsi_d (w a c : Nat) :
      Computes fillna b .stochrsi_d [cl b, int w, int a, int c, .bool fillna] (.stochrsiD w a c)
  | ppo (a c d : Nat) : Computes fillna b .ppo [cl b, int a, int c, int d, .bool fillna] (.ppo a c d)
  | ppo_signal (a c d : Nat) :
      Computes fillna b .ppo_signal [cl b, int a, int c, int d, .bool fillna] (.ppoSignal a c d)
  | ppo_hist (a c d : Nat) : Computes fillna b .ppo_hist [cl b, int a, int c, int d, .bool fillna] (.ppoHist a c d)
  | pvo (a c d : Nat) : Computes fillna b .pvo [vo b, int a, int c, int d, .bool fillna] (.pvo a c d)
  | pvo_signal (a c d : Nat) :
      Computes fillna b .pvo_signal [vo b, int a, int c, int d, .bool fillna] (.pvoSignal a c d)
  | pvo_hist (a c d : Nat) : Computes fillna b .pvo_hist [vo b, int a, int c, int d, .bool fillna] (.pvoHist a c d)
  | ema_indicator (w : Nat) : Computes fillna b .ema_indicator [cl b, int w, .bool fillna] (.ema w)
  | sma_indicator (w : Nat) : Computes fillna b .sma_indicator [cl b, int w, .bool fillna] (.sma w)
  | wma_indicator (w : Nat) : Computes fillna b .wma_indicator [cl b, int w, .bool fillna] (.wma w)
  | macd (a c : Nat) : Computes fillna b .macd [cl b, int a, int c, .bool fillna] (.macd a c 9)
  | macd_signal (a c d : Nat) :
      Computes fillna b .macd_signal [cl b, int a, int c, int d, .bool fillna] (.macdSignal a c d)
  | macd_diff (a c d : Nat) : Computes fillna b .macd_diff [cl b, int a, int c, int d, .bool fillna] (.macdDiff a c d)
  | adx (w : Nat) : Computes fillna b .adx [hi b, lo b, cl b, int w, .bool fillna] (.adx w)
  | adx_pos (w : Nat) : Computes fillna b .adx_pos [hi b, lo b, cl b, int w, .bool fillna] (.adxPos w)
  | adx_neg (w : Nat) : Computes fillna b .adx_neg [hi b, lo b, cl b, int w, .bool fillna] (.adxNeg w)
  | vortex_indicator_pos (w : Nat) :
      Computes fillna b .vortex_indicator_pos [hi b, lo b, cl b, int w, .bool fillna] (.vortexPos w)
  | vortex_indicator_neg (w : Nat) :
      Computes fillna b .vortex_indicator_neg [hi b, lo b, cl b, int w, .bool fillna] (.vortexNeg w)
  | trix (w : Nat) : Computes fillna b .trix [cl b, int w, .bool fillna] (.trix w)
  | mass_index (a c : Nat) : Computes fillna b .mass_index [hi b, lo b, int a, int c, .bool fillna] (.massIndex a c)
  | cci (w : Nat) (x : F) : Computes fillna b .cci [hi b, lo b, cl b, int w, .num x, .bool fillna] (.cci w x)
  | dpo (w : Nat) : Computes fillna b .dpo [cl b, int w, .bool fillna] (.dpo w)
  | kst (r1 r2 r3 r4 w1 w2 w3 w4 : Nat) :
      Computes fillna b .kst
        [cl b, int r1, int r2, int r3, int r4, int w1, int w2, int w3, int w4, .bool fillna]
        (.kst ⟨r1, r2, r3, r4, w1, w2, w3, w4⟩)
  | kst_sig (r1 r2 r3 r4 w1 w2 w3 w4 n : Nat) :
      Computes fillna b .kst_sig
        [cl b, int r1, int r2, int r3, int r4, int w1, int w2, int w3, int w4, int n, .bool fillna]
        (.kstSig ⟨r1, r2, r3, r4, w1, w2, w3, w4⟩ n)
  | stc (a c d x y : Nat) :
      Computes fillna b .stc [cl b, int a, int c, int d, int x, int y, .bool fillna] (.stc a c d x y)
  | ichimoku_conversion_line (a c : Nat) (v : Bool) :
      Computes fillna b .ichimoku_conversion_line [hi b, lo b, int a, int c, .bool v, .bool fillna] (.ichimokuConv a)
  | ichimoku_base_line (a c : Nat) (v : Bool) :
      Computes fillna b .ichimoku_base_line [hi b, lo b, int a, int c, .bool v, .bool fillna] (.ichimokuBase c)
  | ichimoku_a (a c : Nat) (v : Bool) :
      Computes fillna b .ichimoku_a [hi b, lo b, int a, int c, .bool v, .bool fillna] (.ichimokuA a c v)
  | ichimoku_b (a c : Nat) (v : Bool) :
      Computes fillna b .ichimoku_b [hi b, lo b, int a, int c, .bool v, .bool fillna] (.ichimokuB a c v)
  | aroon_up (w : Nat) : Computes fillna b .aroon_up [hi b, lo b, int w, .bool fillna] (.aroonUp w)
  | aroon_down (w : Nat) : Computes fillna b .aroon_down [hi b, lo b, int w, .bool fillna] (.aroonDown w)
  | psar_up (x y : F) : Computes fillna b .psar_up [hi b, lo b, cl b, .num x, .num y, .bool fillna] (.psarUp x y)
  | psar_down (x y : F) :
      Computes fillna b .psar_down [hi b, lo b, cl b, .num x, .num y, .bool fillna] (.psarDown x y)
  | psar_up_indicator (x y : F) :
      Computes fillna b .psar_up_indicator [hi b, lo b, cl b, .num x, .num y, .bool fillna] (.psarUpInd x y)
  | psar_down_indicator (x y : F) :
      Computes fillna b .psar_down_indicator [hi b, lo b, cl b, .num x, .num y, .bool fillna] (.psarDownInd x y)
  | average_true_range (w : Nat) :
      Computes fillna b .average_true_range [hi b, lo b, cl b, int w, .bool fillna] (.atr w)
  | bollinger_mavg (w : Nat) (x : F) : Computes fillna b .bollinger_mavg [cl b, int w, .bool fillna] (.bbMavg w x)
  | bollinger_hband (w : Nat) (x : F) :
      Computes fillna b .bollinger_hband [cl b, int w, .num x, .bool fillna] (.bbHband w x)
  | bollinger_lband (w : Nat) (x : F) :
      Computes fillna b .bollinger_lband [cl b, int w, .num x, .bool fillna] (.bbLband w x)
  | bollinger_wband (w : Nat) (x : F) :
      Computes fillna b .bollinger_wband [cl b, int w, .num x, .bool fillna] (.bbWband w x)
  | bollinger_pband (w : Nat) (x : F) :
      Computes fillna b .bollinger_pband [cl b, int w, .num x, .bool fillna] (.bbPband w x)
  | bollinger_hband_indicator (w : Nat) (x : F) :
      Computes fillna b .bollinger_hband_indicator [cl b, int w, .num x, .bool fillna] (.bbHi w x)
  | bollinger_lband_indicator (w : Nat) (x : F) :
      Computes fillna b .bollinger_lband_indicator [cl b, int w, .num x, .bool fillna] (.bbLi w x)
  | keltner_channel_mband (w a : Nat) (o : Bool) :
      Computes fillna b .keltner_channel_mband
        [hi b, lo b, cl b, int w, int a, .bool fillna, .bool o]
        (.kcMband w a o (lit 2))
  | keltner_channel_hband (w a : Nat) (o : Bool) :
      Computes fillna b .keltner_channel_hband
        [hi b, lo b, cl b, int w, int a, .bool fillna, .bool o]
        (.kcHband w a o (lit 2))
  | keltner_channel_lband (w a : Nat) (o : Bool) :
      Computes fillna b .keltner_channel_lband
        [hi b, lo b, cl b, int w, int a, .bool fillna, .bool o]
        (.kcLband w a o (lit 2))
  | keltner_channel_wband (w a : Nat) (o : Bool) :
      Computes fillna b .keltner_channel_wband
        [hi b, lo b, cl b, int w, int a, .bool fillna, .bool o]
        (.kcWband w a o (lit 2))
  | keltner_channel_pband (w a : Nat) (o : Bool) :
      Computes fillna b .keltner_channel_pband
        [hi b, lo b, cl b, int w, int a, .bool fillna, .bool o]
        (.kcPband w a o (lit 2))
  | keltner_channel_hband_indicator (w a : Nat) (o : Bool) :
      Computes fillna b .keltner_channel_hband_indicator
        [hi b, lo b, cl b, int w, int a, .bool fillna, .bool o]
        (.kcHi w a o (lit 2))
  | keltner_channel_lband_indicator (w a : Nat) (o : Bool) :
      Computes fillna b .keltner_channel_lband_indicator
        [hi b, lo b, cl b, int w, int a, .bool fillna, .bool o]
        (.kcLi w a o (lit 2))
  | donchian_channel_hband (w : Nat) (o : Int) :
      Computes fillna b .donchian_channel_hband [hi b, lo b, cl b, int w, .int o, .bool fillna] (.dcHband w o)
  | donchian_channel_lband (w : Nat) (o : Int) :
      Computes fillna b .donchian_channel_lband [hi b, lo b, cl b, int w, .int o, .bool fillna] (.dcLband w o)
  | donchian_channel_mband (w : Nat) (o : Int) :
      Computes fillna b .donchian_channel_mband [hi b, lo b, cl b, int w, .int o, .bool fillna] (.dcMband w o)
  | donchian_channel_wband (w : Nat) (o : Int) :
      Computes fillna b .donchian_channel_wband [hi b, lo b, cl b, int w, .int o, .bool fillna] (.dcWband w o)
  | donchian_channel_pband (w : Nat) (o : Int) :
      Computes fillna b .donchian_channel_pband [hi b, lo b, cl b, int w, .int o, .bool fillna] (.dcPband w o)
  | ulcer_index (w : Nat) : Computes fillna b .ulcer_index [cl b, int w, .bool fillna] (.ulcer w)
  | acc_dist_index : Computes fillna b .acc_dist_index [hi b, lo b, cl b, vo b, .bool fillna] (.adi)
  | on_balance_volume : Computes fillna b .on_balance_volume [cl b, vo b, .bool fillna] (.obv)
  | chaikin_money_flow (w : Nat) :
      Computes fillna b .chaikin_money_flow [hi b, lo b, cl b, vo b, int w, .bool fillna] (.cmf w)
  | force_index (w : Nat) : Computes fillna b .force_index [cl b, vo b, int w, .bool fillna] (.fi w)
  | ease_of_movement (w : Nat) : Computes fillna b .ease_of_movement [hi b, lo b, vo b, int w, .bool fillna] (.eom)
  | sma_ease_of_movement (w : Nat) :
      Computes fillna b .sma_ease_of_movement [hi b, lo b, vo b, int w, .bool fillna] (.smaEom w)
  | volume_price_trend (s : Option Nat) :
      Computes fillna b .volume_price_trend [cl b, vo b, .bool fillna, optInt s, .bool false] (.vpt s)
  | negative_volume_index : Computes fillna b .negative_volume_index [cl b, vo b, .bool fillna] (.nvi)
  | money_flow_index (w : Nat) :
      Computes fillna b .money_flow_index [hi b, lo b, cl b, vo b, int w, .bool fillna] (.mfi w)
  | volume_weighted_average_price (w : Nat) :
      Computes fillna b .volume_weighted_average_price [hi b, lo b, cl b, vo b, int w, .bool fillna] (.vwap w)
  | daily_return : Computes fillna b .daily_return [cl b, .bool fillna] (.dr)
  | daily_log_return : Computes fillna b .daily_log_return [cl b, .bool fillna] (.dlr)
  | cumulative_return : Computes fillna b .cumulative_return [cl b, .bool fillna] (.cr)

/-- C68: every function, called with all its arguments, returns (or raises) what the catalogue says. -/
theorem fn_value {fillna : Bool} {b : List (Bar F)} {f : PyFn} {args : List (PyVal F)} {ind : Ind F}
    (h : Computes fillna b f args ind) : callFn f args [] = lift (ind.eval fillna b) := by
  cases h
  case volume_price_trend s => cases s <;> rfl
  all_goals rfl

/-! ## defaults -/

/-- the columns a function takes, in order -/
def PyFn.columns (b : List (Bar F)) : PyFn → List (PyVal F)
  | .ultimate_oscillator | .stoch | .stoch_signal | .williams_r | .adx | .adx_pos | .adx_neg
  | .vortex_indicator_pos | .vortex_indicator_neg | .cci | .psar_up | .psar_down | .psar_up_indicator
  | .psar_down_indicator | .average_true_range | .keltner_channel_mband | .keltner_channel_hband
  | .keltner_channel_lband | .keltner_channel_wband | .keltner_channel_pband
  | .keltner_channel_hband_indicator | .keltner_channel_lband_indicator | .donchian_channel_hband
  | .donchian_channel_lband | .donchian_channel_mband | .donchian_channel_wband | .donchian_channel_pband => [hi b, lo b, cl b]
  | .awesome_oscillator | .mass_index | .ichimoku_conversion_line | .ichimoku_base_line | .ichimoku_a
  | .ichimoku_b | .aroon_up | .aroon_down => [hi b, lo b]
  | .pvo | .pvo_signal | .pvo_hist => [vo b]
  | .acc_dist_index | .chaikin_money_flow | .money_flow_index | .volume_weighted_average_price => [hi b, lo b, cl b, vo b]
  | .on_balance_volume | .force_index | .volume_price_trend | .negative_volume_index => [cl b, vo b]
  | .ease_of_movement | .sma_ease_of_movement => [hi b, lo b, vo b]
  | _ => [cl b]

/-- the output with the documented default parameters -/
def PyFn.defaultInd : PyFn → Ind F
  | .rsi => .rsi 14
  | .tsi => .tsi 25 13
  | .ultimate_oscillator => .uo 7 14 28 (lit 4) (lit 2) (lit 1)
  | .stoch => .stoch 14
  | .stoch_signal => .stochSignal 14 3
  | .williams_r => .williamsR 14
  | .awesome_oscillator => .ao 5 34
  | .kama => .kama 10 2 30
  | .roc => .roc 12
  | .stochrsi => .stochrsi 14 3 3
  | .stochrsi_k => .stochrsiK 14 3 3
  | .stochrsi_d => .stochrsiD 14 3 3
  | .ppo => .ppo 26 12 9
  | .ppo_signal => .ppoSignal 26 12 9
  | .ppo_hist => .ppoHist 26 12 9
  | .pvo => .pvo 26 12 9
  | .pvo_signal => .pvoSignal 26 12 9
  | .pvo_hist => .pvoHist 26 12 9
  | .ema_indicator => .ema 12
  | .sma_indicator => .sma 12
  | .wma_indicator => .wma 9
  | .macd => .macd 26 12 9
  | .macd_signal => .macdSignal 26 12 9
  | .macd_diff => .macdDiff 26 12 9
  | .adx => .adx 14
  | .adx_pos => .adxPos 14
  | .adx_neg => .adxNeg 14
  | .vortex_indicator_pos => .vortexPos 14
  | .vortex_indicator_neg => .vortexNeg 14
  | .trix => .trix 15
  | .mass_index => .massIndex 9 25
  | .cci => .cci 20 (lit (3/200))
  | .dpo => .dpo 20
  | .kst => .kst ⟨10, 15, 20, 30, 10, 10, 10, 15⟩
  | .stc => .stc 50 23 10 3 3
  | .kst_sig => .kstSig ⟨10, 15, 20, 30, 10, 10, 10, 15⟩ 9
  | .ichimoku_conversion_line => .ichimokuConv 9
  | .ichimoku_base_line => .ichimokuBase 26
  | .ichimoku_a => .ichimokuA 9 26 false
  | .ichimoku_b => .ichimokuB 26 52 false
  | .aroon_up => .aroonUp 25
  | .aroon_down => .aroonDown 25
  | .psar_up => .psarUp (lit (1/50)) (lit (1/5))
  | .psar_down => .psarDown (lit (1/50)) (lit (1/5))
  | .psar_up_indicator => .psarUpInd (lit (1/50)) (lit (1/5))
  | .psar_down_indicator => .psarDownInd (lit (1/50)) (lit (1/5))
  | .average_true_range => .atr 14
  | .bollinger_mavg => .bbMavg 20 (lit 2)
  | .bollinger_hband => .bbHband 20 (lit 2)
  | .bollinger_lband => .bbLband 20 (lit 2)
  | .bollinger_wband => .bbWband 20 (lit 2)
  | .bollinger_pband => .bbPband 20 (lit 2)
  | .bollinger_hband_indicator => .bbHi 20 (lit 2)
  | .bollinger_lband_indicator => .bbLi 20 (lit 2)
  | .keltner_channel_mband => .kcMband 20 10 true (lit 2)
  | .keltner_channel_hband => .kcHband 20 10 true (lit 2)
  | .keltner_channel_lband => .kcLband 20 10 true (lit 2)
  | .keltner_channel_wband => .kcWband 20 10 true (lit 2)
  | .keltner_channel_pband => .kcPband 20 10 true (lit 2)
  | .keltner_channel_hband_indicator => .kcHi 20 10 true (lit 2)
  | .keltner_channel_lband_indicator => .kcLi 20 10 true (lit 2)
  | .donchian_channel_hband => .dcHband 20 0
  | .donchian_channel_lband => .dcLband 20 0
  | .donchian_channel_mband => .dcMband 10 0
  | .donchian_channel_wband => .dcWband 10 0
  | .donchian_channel_pband => .dcPband 10 0
  | .ulcer_index => .ulcer 14
  | .acc_dist_index => .adi
  | .on_balance_volume => .obv
  | .chaikin_money_flow => .cmf 20
  | .force_index => .fi 13
  | .ease_of_movement => .eom
  | .sma_ease_of_movement => .smaEom 14
  | .volume_price_trend => .vpt none
  | .negative_volume_index => .nvi
  | .money_flow_index => .mfi 14
  | .volume_weighted_average_price => .vwap 14
  | .daily_return => .dr
  | .daily_log_return => .dlr
  | .cumulative_return => .cr

/-- C68: called with the columns only, every function computes its output with the documented defaults and without
filling. -/
theorem fn_defaults (f : PyFn) (b : List (Bar F)) : callFn f (f.columns b) [] = lift (f.defaultInd.eval false b) := by
  cases f <;> rfl

/-- C68: a class called with the columns only uses the same defaults, except for the five functions of `ownDefault`. -/
theorem cls_defaults (f : PyFn) (b : List (Bar F)) (h : f.ownDefault = []) :
    callCls f.cls f.meth (f.columns b) [] = lift (f.defaultInd.eval false b) := by
  cases f <;> first | exact absurd h (by decide) | rfl

/-! ## parameters that a function does not expose -/

/-- C68: what `macd`, `kst`, the Ichimoku lines and `bollinger_mavg` fix does not matter: the class gives the same
whatever the value (for the MACD: any valid one). -/
theorem hidden_irrelevant (b : List (Bar F)) (fillna v : Bool) (a c d n : Nat) (x : F) (r1 r2 r3 r4 w1 w2 w3 w4 : Nat) :
    (1 ≤ d → callCls .MACD .macd [cl b, int a, int c, int d, .bool fillna] [] =
      callFn .macd [cl b, int a, int c, .bool fillna] []) ∧
    callCls .KSTIndicator .kst [cl b, int r1, int r2, int r3, int r4, int w1, int w2, int w3, int w4, int n, .bool fillna] []
      = callFn .kst [cl b, int r1, int r2, int r3, int r4, int w1, int w2, int w3, int w4, .bool fillna] [] ∧
    callCls .IchimokuIndicator .ichimoku_conversion_line [hi b, lo b, int a, int c, int d, .bool v, .bool fillna] [] =
      callFn .ichimoku_conversion_line [hi b, lo b, int a, int c, .bool v, .bool fillna] [] ∧
    callCls .IchimokuIndicator .ichimoku_base_line [hi b, lo b, int a, int c, int d, .bool v, .bool fillna] [] =
      callFn .ichimoku_base_line [hi b, lo b, int a, int c, .bool v, .bool fillna] [] ∧
    callCls .IchimokuIndicator .ichimoku_a [hi b, lo b, int a, int c, int d, .bool v, .bool fillna] [] =
      callFn .ichimoku_a [hi b, lo b, int a, int c, .bool v, .bool fillna] [] ∧
    callCls .IchimokuIndicator .ichimoku_b [hi b, lo b, int a, int c, int d, .bool v, .bool fillna] [] =
      callFn .ichimoku_b [hi b, lo b, int c, int d, .bool v, .bool fillna] [] ∧
    callCls .BollingerBands .bollinger_mavg [cl b, int a, .num x, .bool fillna] [] =
      callFn .bollinger_mavg [cl b, int a, .bool fillna] [] := by
  refine ⟨fun hd => ?_, Eq.trans rfl (fn_value (.kst r1 r2 r3 r4 w1 w2 w3 w4)).symm,
    Eq.trans rfl (fn_value (.ichimoku_conversion_line a c v)).symm,
    Eq.trans rfl (fn_value (.ichimoku_base_line a c v)).symm, Eq.trans rfl (fn_value (.ichimoku_a a c v)).symm,
    Eq.trans rfl (fn_value (.ichimoku_b c d v)).symm, Eq.trans rfl (fn_value (.bollinger_mavg a x)).symm⟩
  show lift ((MACD.new (closes b) a c d fillna).map (·.macd)) = lift ((MACD.new (closes b) a c 9 fillna).map (·.macd))
  unfold MACD.new
  have e : chkSpan d = chkSpan 9 := by unfold chkSpan; rw [if_neg (by omega), if_neg (by omega)]
  rw [e]
  unfold chkSpan
  split_ifs <;> rfl

end

/-! ## witnesses and examples -/

section examples
attribute [local instance] toyFn

/-- twelve rows -/
def twelve : List (Bar (Val ℚ)) :=
  [qbar 3 1 2 10, qbar 5 2 4 20, qbar 6 4 5 15, qbar 6 3 4 12, qbar 9 4 8 30, qbar 9 5 6 30, qbar 8 5 7 11,
   qbar 9 7 8 30, qbar 10 8 8 14, qbar 11 8 9 10, qbar 9 6 6 20, qbar 7 4 5 25]

/-- C68: in the five functions of `ownDefault` the default does matter: the class gives something else (the SMA class
has no default and raises). -/
theorem own_default_differs (f : PyFn) (h : f.ownDefault ≠ []) :
    callFn f (f.columns twelve) [] ≠ callCls f.cls f.meth (f.columns twelve) [] := by
  cases f <;> first | exact absurd rfl h | decide +kernel

/-- C68: so the default middle line of the Donchian channel is not midway between the default bands (which are not
even defined yet). -/
theorem donchian_defaults_disagree :
    (callFn .donchian_channel_mband (PyFn.columns twelve .donchian_channel_mband) []).toOption.map (·.getD 9 .nan)
      = some (.fin 6) ∧
    (callFn .donchian_channel_hband (PyFn.columns twelve .donchian_channel_hband) []).toOption.map (·.getD 9 .nan)
      = some .nan := by decide +kernel

/-- C68: the multiplier of the Keltner channel is not exposed and matters. -/
theorem keltner_multiplier_hidden :
    callCls .KeltnerChannel .keltner_channel_hband [hi twelve, lo twelve, cl twelve, int 2, int 2] 
        [(.original_version, .bool false), (.multiplier, .int 3)] ≠
      callFn .keltner_channel_hband [hi twelve, lo twelve, cl twelve, int 2, int 2] [(.original_version, .bool false)] ∧
    callFn .keltner_channel_hband [hi twelve, lo twelve, cl twelve, int 2, int 2]
        [(.original_version, .bool false), (.multiplier, .int 3)] = .error .typeError := by decide +kernel

/-- C68: the other order of a function of two windows is another call -/
example : callFn .macd [cl twelve, int 3, int 2] [] ≠ callFn .macd [cl twelve, int 2, int 3] [] := by decide +kernel
/-- keywords in another order, and one argument by position -/
example : callFn .macd [cl twelve] [(.window_fast, int 2), (.window_slow, int 3)] =
    callFn .macd [cl twelve, int 3, int 2] [] := by decide +kernel
/-- missing column, unknown keyword, argument given twice -/
example : callFn (F := Val ℚ) .rsi [] [] = .error .typeError ∧
    callFn .rsi [cl twelve] [(.window_slow, int 3)] = .error .typeError ∧
    callFn .rsi [cl twelve, int 3] [(.window, int 3)] = .error .typeError := by decide +kernel
/-- the hypotheses of `fn_as_class` -/
example : PyFn.sig .ema_indicator |>.accepts [cl twelve] [(.window, int 3)] := by decide +kernel

end examples

end TA
