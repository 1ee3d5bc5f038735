import Verif.Spec.Live
import Verif.Lemmas.Take
import Verif.Lemmas.Psar
import Verif.Lemmas.AdxTake
import Mathlib.Logic.Equiv.Fin.Basic
import Mathlib.Data.List.TakeDrop

/-! # Building blocks of row-by-row computation -/

set_option linter.unusedSectionVars false

namespace TA

theorem Fits.prod {F : Type} {c m c' m' : Nat} {S T : Type} (h : Fits F c m S) (h' : Fits F c' m' T) :
    Fits F (c * c') (m + m') (S × T) := by
  obtain ⟨e, he⟩ := h
  obtain ⟨e', he'⟩ := h'
  refine ⟨fun s => (finProdFinEquiv ((e s.1).1, (e' s.2).1), Fin.append (e s.1).2 (e' s.2).2), ?_⟩
  rintro ⟨a, b⟩ ⟨a', b'⟩ h
  simp only [Prod.mk.injEq, EmbeddingLike.apply_eq_iff_eq] at h
  obtain ⟨⟨h1, h2⟩, h3⟩ := h
  have h4 : (e a).2 = (e a').2 := by
    funext i
    have := congrFun h3 (Fin.castAdd m' i)
    simpa using this
  have h5 : (e' b).2 = (e' b').2 := by
    funext i
    have := congrFun h3 (Fin.natAdd m i)
    simpa using this
  rw [he (Prod.ext h1 h4), he' (Prod.ext h2 h5)]

theorem Fits.unit (F : Type) : Fits F 1 0 Unit := ⟨fun _ => (0, Fin.elim0), fun _ _ _ => rfl⟩

theorem Fits.one (F : Type) : Fits F 1 1 F :=
  ⟨fun x => (0, fun _ => x), fun x y h => by
    have := congrFun (Prod.ext_iff.mp h).2 0
    exact this⟩

theorem Fits.fin (F : Type) (k : Nat) : Fits F k 0 (Fin k) :=
  ⟨fun x => (x, Fin.elim0), fun _ _ h => (Prod.ext_iff.mp h).1⟩

theorem Fits.bool (F : Type) : Fits F 2 0 Bool :=
  ⟨fun x => (if x then 1 else 0, Fin.elim0), fun x y h => by
    have := (Prod.ext_iff.mp h).1
    cases x <;> cases y <;> simp_all⟩

/-- at most `w` entries -/
abbrev Upto (F : Type) (w : Nat) : Type := { l : List F // l.length ≤ w }

theorem Fits.upto (F : Type) [Inhabited F] (w : Nat) : Fits F (w + 1) w (Upto F w) := by
  refine ⟨fun l => (⟨l.1.length, by have := l.2; omega⟩, fun i => l.1.getD i default), ?_⟩
  rintro ⟨l, hl⟩ ⟨l', hl'⟩ h
  have h1 : l.length = l'.length := congrArg Fin.val (Prod.ext_iff.mp h).1
  have h2 := (Prod.ext_iff.mp h).2
  apply Subtype.ext
  apply List.ext_getElem h1
  intro i h3 h4
  have := congrFun h2 ⟨i, by omega⟩
  simpa [List.getD, h3, h4] using this

theorem Fits.inj {F : Type} {c m : Nat} {S T : Type} (h : Fits F c m T) (g : S → T) (hg : Function.Injective g) : Fits F c m S := by
  obtain ⟨e, he⟩ := h
  exact ⟨e ∘ g, he.comp hg⟩

theorem foldl_of {I S : Type} {h : List I → S} {step : S → I → S} (hs : ∀ b x, h (b ++ [x]) = step (h b) x) (b : List I) :
    b.foldl step (h []) = h b := by
  induction b using List.reverseRecOn with
  | nil => rfl
  | append_singleton b x ih => rw [List.foldl_append, ih, hs]; rfl

section
variable {F : Type} {I G H : Type} {c m c' m' : Nat}

theorem Live.intro {S : Type} (h : List I → S) (step : S → I → S) (hs : ∀ b x, h (b ++ [x]) = step (h b) x) (out : S → G)
    (hf : Fits F c m S) : Live F c m (fun b => tab b.length fun i => out (h (b.take (i + 1)))) :=
  ⟨S, h [], step, out, hf, fun b => by simp only [foldl_of hs]⟩

theorem Live.congr {f g : List I → List G} (h : Live F c m f) (e : ∀ b, g b = f b) : Live F c m g := by
  rwa [show g = f from funext e]

theorem Live.len {f : List I → List G} (h : Live F c m f) (b : List I) : (f b).length = b.length := by
  obtain ⟨S, i, st, o, -, e⟩ := h
  rw [e]
  simp

theorem tab_take_min {α : Type} (n k : Nat) (f : Nat → α) : (tab n f).take k = tab (min k n) f := by
  unfold tab
  rw [← List.map_take, List.take_range]

theorem trace_append {S : Type} (init : S) (step : S → I → S) (out : S → G) (b : List I) (x : I) :
    (tab (b ++ [x]).length fun i => out (((b ++ [x]).take (i + 1)).foldl step init))
      = (tab b.length fun i => out ((b.take (i + 1)).foldl step init)) ++ [out ((b ++ [x]).foldl step init)] := by
  unfold tab
  rw [List.length_append, List.length_singleton, List.range_succ, List.map_append]
  congr 1
  · apply List.map_congr_left
    intro i hi
    have hi : i < b.length := List.mem_range.mp hi
    rw [List.take_append_of_le_length (by omega)]
  · show [out (((b ++ [x]).take (b.length + 1)).foldl step init)] = _
    rw [List.take_of_length_le (by simp)]

/-- a second computation fed with the first one's rows -/
theorem Live.scan {f : List I → List G} (hf : Live F c m f) {T : Type} (h : List G → T) (step' : T → G → T)
    (hs : ∀ b x, h (b ++ [x]) = step' (h b) x) (out' : T → H) (hT : Fits F c' m' T) :
    Live F (c * c') (m + m') (fun b => tab (f b).length fun i => out' (h ((f b).take (i + 1)))) := by
  have hlen := hf.len
  obtain ⟨S, init, step, out, hS, e⟩ := hf
  refine ⟨S × T, (init, h []), fun s x => (step s.1 x, step' s.2 (out (step s.1 x))), fun s => out' s.2, hS.prod hT, fun b => ?_⟩
  have key : ∀ b : List I, b.foldl (fun (s : S × T) x => (step s.1 x, step' s.2 (out (step s.1 x)))) (init, h [])
      = (b.foldl step init, h (f b)) := by
    intro b
    induction b using List.reverseRecOn with
    | nil => rw [e]; rfl
    | append_singleton b x ih =>
      rw [List.foldl_append, ih, e (b ++ [x]), trace_append, ← e b, hs, List.foldl_append]
      rfl
  show (tab (f b).length fun i => _) = _
  rw [hlen]
  unfold tab
  apply List.map_congr_left
  intro i hi
  have hi : i < b.length := List.mem_range.mp hi
  rw [key]
  have : (f b).take (i + 1) = f (b.take (i + 1)) := by
    rw [e, e, tab_take_min, List.length_take]
    unfold tab
    apply List.map_congr_left
    intro j hj
    have hj : j < min (i + 1) b.length := List.mem_range.mp hj
    rw [List.take_take, min_eq_left (by omega)]
  rw [this]

theorem Live.pair {f : List I → List G} {g : List I → List H} (hf : Live F c m f) (hg : Live F c' m' g) :
    Live F (c * c') (m + m') (fun b => (f b).zip (g b)) := by
  obtain ⟨S, i1, s1, o1, h1, e1⟩ := hf
  obtain ⟨T, i2, s2, o2, h2, e2⟩ := hg
  refine ⟨S × T, (i1, i2), fun s x => (s1 s.1 x, s2 s.2 x), fun s => (o1 s.1, o2 s.2), h1.prod h2, fun b => ?_⟩
  have key : ∀ b : List I, b.foldl (fun (s : S × T) x => (s1 s.1 x, s2 s.2 x)) (i1, i2) = (b.foldl s1 i1, b.foldl s2 i2) := by
    intro b
    induction b using List.reverseRecOn with
    | nil => rfl
    | append_singleton b x ih => rw [List.foldl_append, ih, List.foldl_append, List.foldl_append]; rfl
  show (f b).zip (g b) = _
  rw [e1, e2]
  simp only [key]
  unfold tab
  rw [List.zip_map']

theorem Live.map {f : List I → List G} (hf : Live F c m f) (g : G → H) : Live F c m (fun b => (f b).map g) := by
  obtain ⟨S, i1, s1, o1, h1, e1⟩ := hf
  refine ⟨S, i1, s1, fun s => g (o1 s), h1, fun b => ?_⟩
  show (f b).map g = _
  rw [e1]
  unfold tab
  rw [List.map_map]
  rfl

end

section series
variable {F : Type} [Flt F] {I : Type} {c m c' m' c'' m'' : Nat}

theorem live_col (g : I → F) : Live F 1 1 (fun b : List I => b.map g) := by
  refine (Live.intro (h := fun b : List I => (b.getLast?.map g).getD nan) (step := fun _ x => g x) (fun b x => by simp) id
    (Fits.one F)).congr fun b => ?_
  apply List.ext_getElem
  · simp
  · intro i h1 h2
    have h1 : i < b.length := by simpa using h1
    simp [tab, List.getLast?_take, h1]

theorem Live.zip2 {f g : List I → Series F} (hf : Live F c m f) (hg : Live F c' m' g) (op : F → F → F) :
    Live F (c * c') (m + m') (fun b => zip2 op (f b) (g b)) := by
  refine ((hf.pair hg).map fun p => op p.1 p.2).congr fun b => ?_
  have h1 := hf.len b
  have h2 := hg.len b
  apply List.ext_getElem
  · simp [h1, h2]
  · intro i h3 h4
    have h3 : i < (f b).length := by simpa using h3
    simp only [TA.zip2, tab, List.getElem_map, List.getElem_range, List.getElem_zip]
    rw [ix_lt h3, ix_lt (by omega)]

theorem Live.zip3 {f g k : List I → Series F} (hf : Live F c m f) (hg : Live F c' m' g) (hk : Live F c'' m'' k)
    (op : F → F → F → F) : Live F (c * c' * c'') (m + m' + m'') (fun b => zip3 op (f b) (g b) (k b)) := by
  refine (((hf.pair hg).pair hk).map fun p => op p.1.1 p.1.2 p.2).congr fun b => ?_
  have h1 := hf.len b
  have h2 := hg.len b
  have h3 := hk.len b
  apply List.ext_getElem
  · simp [h1, h2, h3]
  · intro i h4 h5
    have h4 : i < (f b).length := by simpa using h4
    simp only [TA.zip3, tab, List.getElem_map, List.getElem_range, List.getElem_zip]
    rw [ix_lt h4, ix_lt (by omega), ix_lt (by omega)]

/-- the last `w` rows -/
def window (w : Nat) (p : List F) : Upto F w := ⟨lastN w p, by unfold lastN; simp; omega⟩

def windowStep (w : Nat) (l : Upto F w) (x : F) : Upto F w := window w (l.1 ++ [x])

theorem window_append (w : Nat) (p : List F) (x : F) : window w (p ++ [x]) = windowStep w (window w p) x := by
  apply Subtype.ext
  show lastN w (p ++ [x]) = lastN w (lastN w p ++ [x])
  unfold lastN
  rcases Nat.eq_zero_or_pos w with rfl | hw
  · simp
  · simp only [List.length_append, List.length_singleton, List.length_drop]
    rw [List.drop_append_of_le_length (by omega), List.drop_append_of_le_length (by simp; omega), List.drop_drop]
    congr 2
    omega

local instance : Inhabited F := ⟨nan⟩

theorem Live.roll {f : List I → Series F} (hf : Live F c m f) (w : Nat) (agg : List F → F) :
    Live F (c * (w + 1)) (m + w) (fun b => roll w agg (f b)) :=
  (hf.map clean).scan (window w) (windowStep w) (window_append w) (fun l => agg l.1) (Fits.upto F w)

theorem Live.shift {f : List I → Series F} (hf : Live F c m f) (k : Nat) (fill : F) :
    Live F (c * (k + 2)) (m + (k + 1)) (fun b => shift (f b) k fill) := by
  refine (hf.scan (window (k + 1)) (windowStep (k + 1)) (window_append (k + 1)) (fun l => if l.1.length ≤ k then fill else ix l.1 0)
    (Fits.upto F (k + 1))).congr fun b => ?_
  refine tab_congr rfl fun i hi => ?_
  have hl : (lastN (k + 1) ((f b).take (i + 1))).length = min (k + 1) (i + 1) := by
    unfold lastN
    simp
    omega
  show _ = if (lastN (k + 1) ((f b).take (i + 1))).length ≤ k then _ else ix (lastN (k + 1) ((f b).take (i + 1))) 0
  rw [hl]
  by_cases h : i < k
  · rw [if_pos h, if_pos (by omega)]
  · rw [if_neg h, if_neg (by omega), ix_lt (by omega), ix_lt (by rw [hl]; omega)]
    unfold lastN
    rw [List.getElem_drop, List.getElem_take]
    congr 1
    simp
    omega

/-- the state of `ewm` with a counter that stops -/
def ewmPack (mp : Nat) (s : EwmSt F) : F × F × Fin (max mp 1 + 1) := (s.avg, s.oldWt, ⟨min s.nobs (max mp 1), by omega⟩)
def ewmUnpack {mp : Nat} (t : F × F × Fin (max mp 1 + 1)) : EwmSt F := ⟨t.1, t.2.1, t.2.2.1⟩

theorem ewmPack_step (alpha : F) (mp : Nat) (s : EwmSt F) (x : F) :
    ewmPack mp (ewmStep alpha s x) = ewmPack mp (ewmStep alpha (ewmUnpack (ewmPack mp s)) x) := by
  obtain ⟨a, o, n⟩ := s
  have e : ∀ n', ewmStep alpha ⟨a, o, n'⟩ x = ⟨(ewmStep alpha ⟨a, o, n⟩ x).avg, (ewmStep alpha ⟨a, o, n⟩ x).oldWt,
      n' + (if Flt.isNaN x then 0 else 1)⟩ := by
    intro n'
    unfold ewmStep
    cases Flt.isNaN x <;> cases Flt.isNaN a <;> simp
  unfold ewmUnpack
  show ewmPack mp (ewmStep alpha ⟨a, o, n⟩ x) = ewmPack mp (ewmStep alpha ⟨a, o, min n (max mp 1)⟩ x)
  rw [e n, e (min n (max mp 1))]
  unfold ewmPack
  simp only [Prod.mk.injEq, Fin.mk.injEq, true_and]
  split_ifs <;> omega

theorem Live.ewm {f : List I → Series F} (hf : Live F c m f) (alpha : F) (mp : Nat) :
    Live F (c * (1 * (1 * (max mp 1 + 1)))) (m + (1 + (1 + 0))) (fun b => ewm alpha mp (f b)) := by
  refine ((hf.map clean).scan (fun p => ewmPack mp (p.foldl (ewmStep alpha) ewmInit))
    (fun t x => ewmPack mp (ewmStep alpha (ewmUnpack t) x)) (fun p x => ?_) (fun t => ewmOut mp (ewmUnpack t))
    ((Fits.one F).prod ((Fits.one F).prod (Fits.fin F _)))).congr fun b => ?_
  · rw [List.foldl_append]
    exact ewmPack_step alpha mp _ x
  · unfold TA.ewm pre
    refine tab_congr rfl fun i _ => ?_
    dsimp only
    generalize (((f b).map clean).take (i + 1)).foldl (ewmStep alpha) ewmInit = s
    show ewmOut mp s = if max mp 1 ≤ min s.nobs (max mp 1) then s.avg else nan
    unfold ewmOut
    by_cases h : max mp 1 ≤ s.nobs
    · rw [if_pos h, if_pos (by omega)]
    · rw [if_neg h, if_neg (by omega)]

theorem Live.cumsum {f : List I → Series F} (hf : Live F c m f) :
    Live F (c * (1 * 1)) (m + (1 + 1)) (fun b => cumsum (f b)) := by
  refine hf.scan (T := F × F) (h := fun p => (sumL (valid p), ix p (p.length - 1)))
    (step' := fun t x => (if Flt.isNaN x then t.1 else t.1 +. x, x)) (fun p x => ?_)
    (fun t => if Flt.isNaN t.2 then nan else t.1) ((Fits.one F).prod (Fits.one F))
  have e : ix (p ++ [x]) ((p ++ [x]).length - 1) = x := by simp [ix]
  rw [e, valid_append]
  unfold sumL
  rw [List.foldl_append]
  cases h : Flt.isNaN x <;> simp [valid, h]

theorem Live.ffill {f : List I → Series F} (hf : Live F c m f) : Live F (c * 1) (m + 1) (fun b => ffill (f b)) := by
  refine hf.scan (T := F) (h := fun p => (valid p).getLast?.getD nan)
    (step' := fun t x => if Flt.isNaN x then t else x) (fun p x => ?_) id (Fits.one F)
  rw [valid_append]
  cases h : Flt.isNaN x <;> simp [valid, h]

end series

end TA
