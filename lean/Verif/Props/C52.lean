import Verif.Lemmas.Wrap
import Verif.Props.C51

/-! # C52-C56: the wrapper functions -/

set_option linter.unusedSectionVars false

namespace TA
variable {F : Type} [FltFn F]

theorem nodup_features (fn : Fn) (vec : Bool) : ((fn.features (F := F) vec).map (·.1)).Nodup := by
  cases fn <;> cases vec <;>
    simp only [Fn.features, allF, volumeF, volatilityF, trendF, momentumF, othersF, List.map, List.cons_append,
      List.nil_append, Bool.false_eq_true, if_true, if_false] <;> decide +kernel

/-- no column of the frame has the name of a generated column -/
def Fn.Fresh (fn : Fn) (df : Frame F) (pfx : String) (vec : Bool) : Prop :=
  ∀ p ∈ fn.features (F := F) vec, ∀ c ∈ df.cols, c.1 ≠ pfx ++ p.1

/-- `r` is the frame `df` with columns `pfx ++ name` appended for the features `fs`, in order, each holding the indicator's
output on the bars `b`, up to the first feature that raises. -/
def Filled (pfx : String) (fillna : Bool) (b : List (Bar F)) (fs : List (String × Ind F)) (df : Frame F) (r : Outcome F) : Prop :=
  ∃ vals : List (Series F),
    List.Forall₂ (fun p s => p.2.evalAt df.idx fillna b = .ok s) (fs.take vals.length) vals ∧
    r.1.idx = df.idx ∧
    r.1.cols = df.cols ++ List.zipWith (fun p s => (pfx ++ p.1, s)) fs vals ∧
    match r.2 with
    | none => vals.length = fs.length
    | some e => ∃ p, fs[vals.length]? = some p ∧ p.2.evalAt df.idx fillna b = .error e

theorem setCol_fresh (name : String) (s : Series F) : ∀ cols : List (String × Series F), (∀ c ∈ cols, c.1 ≠ name) →
    setCol name s cols = cols ++ [(name, s)]
  | [], _ => rfl
  | (a, t) :: rest, h => by
    unfold setCol
    rw [if_neg (h (a, t) List.mem_cons_self), setCol_fresh name s rest (fun c hc => h c (List.mem_cons_of_mem _ hc))]
    rfl

theorem assignAll_filled (pfx : String) (fillna : Bool) (b : List (Bar F)) (idx : Idx) :
    ∀ (fs : List (String × Ind F)) (df : Frame F), df.idx = idx → (∀ p ∈ fs, ∀ c ∈ df.cols, c.1 ≠ pfx ++ p.1) →
      (fs.map (·.1)).Nodup → Filled pfx fillna b fs df (assignAll pfx (entries idx fillna b fs) df)
  | [], df, _, _, _ => ⟨[], .nil, rfl, by simp [entries, assignAll], rfl⟩
  | p :: rest, df, hi, hf, hn => by
    subst hi
    rcases hx : p.2.evalAt df.idx fillna b with e | s
    · have : assignAll pfx (entries df.idx fillna b (p :: rest)) df = (df, some e) := by
        unfold entries
        rw [List.map_cons, hx]; rfl
      rw [this]
      exact ⟨[], .nil, rfl, by simp, p, rfl, hx⟩
    · have : assignAll pfx (entries df.idx fillna b (p :: rest)) df
          = assignAll pfx (entries df.idx fillna b rest) (df.set (pfx ++ p.1) s) := by
        unfold entries
        rw [List.map_cons, hx]; rfl
      rw [this]
      have hset : (df.set (pfx ++ p.1) s).cols = df.cols ++ [(pfx ++ p.1, s)] :=
        setCol_fresh _ _ _ (hf p List.mem_cons_self)
      rw [List.map_cons, List.nodup_cons] at hn
      have hfr : ∀ q ∈ rest, ∀ c ∈ (df.set (pfx ++ p.1) s).cols, c.1 ≠ pfx ++ q.1 := by
        intro q hq c hc
        rw [hset, List.mem_append, List.mem_singleton] at hc
        rcases hc with hc | rfl
        · exact hf q (List.mem_cons_of_mem _ hq) c hc
        · intro h
          exact hn.1 (List.mem_map.mpr ⟨q, hq, ((String.append_right_inj pfx).mp h).symm⟩)
      obtain ⟨vals, h1, h2, h3, h4⟩ := assignAll_filled pfx fillna b df.idx rest (df.set (pfx ++ p.1) s) rfl hfr hn.2
      refine ⟨s :: vals, ?_, h2, ?_, ?_⟩
      · exact .cons hx h1
      · rw [h3, hset]; simp
      · generalize (assignAll pfx (entries df.idx fillna b rest) (df.set (pfx ++ p.1) s)).2 = o at h4 ⊢
        cases o with
        | none => simpa using h4
        | some e => exact h4

theorem noClash_of_fresh {fn : Fn} {df : Frame F} {high low close volume pfx : String} {vec : Bool} {b : List (Bar F)}
    (hr : fn.Reads df high low close volume b) (hf : fn.Fresh df pfx vec) : fn.NoClash F high low close volume pfx vec := by
  intro p hp m hm h
  have h1 := hr m hm
  unfold Frame.get at h1
  split at h1
  · rename_i s hs
    obtain ⟨l1, l2, h2, _⟩ := List.lookup_eq_some_iff.mp hs
    exact hf p hp (m.1, s) (by rw [h2]; simp) h
  · cases h1

/-- C52, C53. Each wrapper function, on any frame whose input columns hold the bars `b` and that has no column with a generated
name, appends exactly the documented columns in the documented order, each once, each holding the indicator with the
documented parameters applied to the original inputs; all columns and the index of the caller's frame stay as they are. If an
indicator raises, the columns before it have been appended and the exception is that indicator's. -/
theorem wrapper_filled (fn : Fn) {df : Frame F} {open_ high low close volume pfx : String} {fillna vec : Bool} {b : List (Bar F)}
    (hr : fn.Reads df high low close volume b) (hf : fn.Fresh df pfx vec) :
    Filled pfx fillna b (fn.features vec) df (fn.call df open_ high low close volume fillna pfx vec) := by
  rw [call_eq fn hr (noClash_of_fresh hr hf)]
  exact assignAll_filled pfx fillna b df.idx _ df rfl hf (nodup_features fn vec)

theorem assignAll_get (pfx : String) (fillna : Bool) (b : List (Bar F)) (idx : Idx) :
    ∀ (fs : List (String × Ind F)) (df : Frame F), (fs.map (·.1)).Nodup →
      (assignAll pfx (entries idx fillna b fs) df).2 = none → ∀ p ∈ fs,
      (assignAll pfx (entries idx fillna b fs) df).1.get (pfx ++ p.1) = p.2.evalAt idx fillna b
  | [], _, _, _ => fun _ hp => by cases hp
  | p :: rest, df, hn, hok => by
    rcases hx : p.2.evalAt idx fillna b with e | s
    · have : assignAll pfx (entries idx fillna b (p :: rest)) df = (df, some e) := by
        unfold entries
        rw [List.map_cons, hx]; rfl
      rw [this] at hok
      cases hok
    · have : assignAll pfx (entries idx fillna b (p :: rest)) df
          = assignAll pfx (entries idx fillna b rest) (df.set (pfx ++ p.1) s) := by
        unfold entries
        rw [List.map_cons, hx]; rfl
      rw [this] at hok ⊢
      rw [List.map_cons, List.nodup_cons] at hn
      intro q hq
      rcases List.mem_cons.mp hq with rfl | hq
      · rw [get_assignAll, get_set, if_pos rfl, hx]
        intro r hr h
        obtain ⟨r', hr', rfl⟩ := List.mem_map.mp hr
        exact hn.1 (List.mem_map.mpr ⟨r', hr', ((String.append_right_inj pfx).mp h).symm⟩)
      · exact assignAll_get pfx fillna b idx rest _ hn.2 hok q hq

/-- C53. Also when generated columns overwrite columns of the caller's frame, as long as these are not inputs: after success
every generated column is the indicator of the original input columns. -/
theorem wrapper_values (fn : Fn) {df : Frame F} {open_ high low close volume pfx : String} {fillna vec : Bool} {b : List (Bar F)}
    (hr : fn.Reads df high low close volume b) (hc : fn.NoClash F high low close volume pfx vec)
    (hok : (fn.call df open_ high low close volume fillna pfx vec).2 = none) :
    ∀ p ∈ fn.features vec,
      (fn.call df open_ high low close volume fillna pfx vec).1.get (pfx ++ p.1) = p.2.evalAt df.idx fillna b := by
  rw [call_eq fn hr hc] at hok ⊢
  exact assignAll_get pfx fillna b df.idx _ df (nodup_features fn vec) hok

/-! ## what is never touched -/

/-- every column this computation emits has a name in `ns` -/
def Emits (ns : List String) (x : Except PyErr (List (String × Except PyErr (Series F)))) : Prop :=
  ∀ L, x = .ok L → ∀ q ∈ L, q.1 ∈ ns

theorem emits_bind {α : Type} {ns : List String} {x : Except PyErr α}
    {f : α → Except PyErr (List (String × Except PyErr (Series F)))} (h : ∀ a, Emits ns (f a)) : Emits ns (x >>= f) := by
  cases x with
  | error e => intro L hL; cases hL
  | ok a => exact h a

theorem emits_pure {ns : List String} {L : List (String × Except PyErr (Series F))} (h : ∀ q ∈ L, q.1 ∈ ns) :
    Emits ns (pure L) := by
  intro L' hL'
  cases hL'
  exact h

theorem filter_setCol {keep : String → Bool} {name : String} (hk : keep name = false) (s : Series F) :
    ∀ cols : List (String × Series F), (setCol name s cols).filter (fun c => keep c.1) = cols.filter (fun c => keep c.1)
  | [] => by simp [setCol, hk]
  | (a, t) :: rest => by
    unfold setCol
    split_ifs with h
    · subst h; simp [hk]
    · rw [List.filter_cons, List.filter_cons, filter_setCol hk s rest]

theorem filter_assignAll {pfx : String} {keep : String → Bool} : ∀ (L : List (String × Except PyErr (Series F))) (df : Frame F),
    (∀ q ∈ L, keep (pfx ++ q.1) = false) →
      (assignAll pfx L df).1.cols.filter (fun c => keep c.1) = df.cols.filter (fun c => keep c.1)
  | [], _, _ => rfl
  | (_, .error _) :: _, _, _ => rfl
  | (nm, .ok s) :: rest, df, h => by
    show (assignAll pfx rest (df.set (pfx ++ nm) s)).1.cols.filter _ = _
    rw [filter_assignAll rest _ (fun q hq => h q (List.mem_cons_of_mem _ hq))]
    exact filter_setCol (h (nm, .ok s) List.mem_cons_self) s df.cols

theorem keeps_runBlocks {pfx : String} {keep : String → Bool} {ns : List String} (hk : ∀ m ∈ ns, keep (pfx ++ m) = false) :
    ∀ (bs : List (Block F)), (∀ blk ∈ bs, ∀ df, Emits ns (blk df)) → ∀ df : Frame F,
      (runBlocks pfx bs df).1.cols.filter (fun c => keep c.1) = df.cols.filter (fun c => keep c.1) ∧
        (runBlocks pfx bs df).1.idx = df.idx
  | [], _, _ => ⟨rfl, rfl⟩
  | blk :: rest, h, df => by
    have h1 : (runBlock pfx blk df).1.cols.filter (fun c => keep c.1) = df.cols.filter (fun c => keep c.1) ∧
        (runBlock pfx blk df).1.idx = df.idx := by
      unfold runBlock
      rcases hx : blk df with e | L
      · exact ⟨rfl, rfl⟩
      · exact ⟨filter_assignAll L df (fun q hq => hk _ (h blk List.mem_cons_self df L hx q hq)), idx_assignAll pfx L df⟩
    unfold runBlocks
    rcases hx : runBlock pfx blk df with ⟨d, _ | e⟩
    · rw [hx] at h1
      obtain ⟨h2, h3⟩ := keeps_runBlocks hk rest (fun blk hb => h blk (List.mem_cons_of_mem _ hb)) d
      exact ⟨h2.trans h1.1, h3.trans h1.2⟩
    · rw [hx] at h1
      exact h1

/-- the names of the features -/
def names (fs : List (String × Ind F)) : List String := fs.map (·.1)

local macro "emit" : tactic => `(tactic| (
  intro df
  repeat (refine emits_bind ?_; intro _)
  refine emits_pure ?_
  simp [names, volumeF, volatilityF, trendF, momentumF, othersF]))

theorem emits_volume (high low close volume : String) (fillna vec : Bool) :
    ∀ blk ∈ volumeBlocks (F := F) high low close volume fillna vec, ∀ df, Emits (names (volumeF (F := F) vec)) (blk df) := by
  unfold volumeBlocks
  cases vec <;>
    simp only [List.forall_mem_append, List.forall_mem_cons, List.not_mem_nil, false_implies, implies_true, and_true,
      Bool.false_eq_true, if_true, if_false] <;>
    (repeat' apply And.intro) <;> emit

theorem emits_volatility (high low close : String) (fillna vec : Bool) :
    ∀ blk ∈ volatilityBlocks (F := F) high low close fillna vec, ∀ df, Emits (names (volatilityF (F := F) vec)) (blk df) := by
  unfold volatilityBlocks
  cases vec <;>
    simp only [List.forall_mem_append, List.forall_mem_cons, List.not_mem_nil, false_implies, implies_true, and_true,
      Bool.false_eq_true, if_true, if_false] <;>
    (repeat' apply And.intro) <;> emit

theorem emits_trend (high low close : String) (fillna vec : Bool) :
    ∀ blk ∈ trendBlocks (F := F) high low close fillna vec, ∀ df, Emits (names (trendF (F := F) vec)) (blk df) := by
  unfold trendBlocks
  cases vec <;>
    simp only [List.forall_mem_append, List.forall_mem_cons, List.not_mem_nil, false_implies, implies_true, and_true,
      Bool.false_eq_true, if_true, if_false] <;>
    (repeat' apply And.intro) <;> emit

theorem emits_momentum (high low close volume : String) (fillna vec : Bool) :
    ∀ blk ∈ momentumBlocks (F := F) high low close volume fillna vec, ∀ df, Emits (names (momentumF (F := F) vec)) (blk df) := by
  unfold momentumBlocks
  cases vec <;>
    simp only [List.forall_mem_append, List.forall_mem_cons, List.not_mem_nil, false_implies, implies_true, and_true,
      Bool.false_eq_true, if_true, if_false] <;>
    (repeat' apply And.intro) <;> emit

theorem emits_others (close : String) (fillna : Bool) :
    ∀ blk ∈ othersBlocks (F := F) close fillna, ∀ df, Emits (names (othersF (F := F))) (blk df) := by
  unfold othersBlocks
  simp only [List.forall_mem_cons, List.not_mem_nil, false_implies, implies_true, and_true]
  (repeat' apply And.intro) <;> emit

theorem keeps_andThen {keep : String → Bool} {r : Outcome F} {g : Frame F → Outcome F} {df : Frame F}
    (h1 : r.1.cols.filter (fun c => keep c.1) = df.cols.filter (fun c => keep c.1) ∧ r.1.idx = df.idx)
    (h2 : ∀ d : Frame F, (g d).1.cols.filter (fun c => keep c.1) = d.cols.filter (fun c => keep c.1) ∧ (g d).1.idx = d.idx) :
    (r.andThen g).1.cols.filter (fun c => keep c.1) = df.cols.filter (fun c => keep c.1) ∧ (r.andThen g).1.idx = df.idx := by
  rcases r with ⟨d, _ | e⟩
  · exact ⟨(h2 d).1.trans h1.1, (h2 d).2.trans h1.2⟩
  · exact h1

/-- C52, C56. On every frame, whatever columns it has, whether the call succeeds or fails: the columns whose names are not
generated stay as they are and in the same order, and so does the index. -/
theorem wrapper_keeps (fn : Fn) (df : Frame F) (open_ high low close volume pfx : String) (fillna vec : Bool) (keep : String → Bool)
    (hk : ∀ p ∈ fn.features (F := F) vec, keep (pfx ++ p.1) = false) :
    (fn.call df open_ high low close volume fillna pfx vec).1.cols.filter (fun c => keep c.1)
        = df.cols.filter (fun c => keep c.1) ∧
      (fn.call df open_ high low close volume fillna pfx vec).1.idx = df.idx := by
  have nm : ∀ fs : List (String × Ind F), (∀ p ∈ fs, keep (pfx ++ p.1) = false) → ∀ m ∈ names fs, keep (pfx ++ m) = false := by
    intro fs h m hm
    obtain ⟨p, hp, rfl⟩ := List.mem_map.mp hm
    exact h p hp
  cases fn with
  | volume => exact keeps_runBlocks (nm _ hk) _ (emits_volume _ _ _ _ _ _) df
  | volatility => exact keeps_runBlocks (nm _ hk) _ (emits_volatility _ _ _ _ _) df
  | trend => exact keeps_runBlocks (nm _ hk) _ (emits_trend _ _ _ _ _) df
  | momentum => exact keeps_runBlocks (nm _ hk) _ (emits_momentum _ _ _ _ _ _) df
  | others => exact keeps_runBlocks (nm _ hk) _ (emits_others _ _) df
  | all =>
    have hk' : ∀ p ∈ allF (F := F) vec, keep (pfx ++ p.1) = false := hk
    simp only [allF, List.forall_mem_append] at hk'
    obtain ⟨⟨⟨⟨k1, k2⟩, k3⟩, k4⟩, k5⟩ := hk'
    refine keeps_andThen (keeps_andThen (keeps_andThen (keeps_andThen ?_ fun d => ?_) fun d => ?_) fun d => ?_) fun d => ?_
    · exact keeps_runBlocks (nm _ k1) _ (emits_volume _ _ _ _ _ _) _
    · exact keeps_runBlocks (nm _ k2) _ (emits_volatility _ _ _ _ _) _
    · exact keeps_runBlocks (nm _ k3) _ (emits_trend _ _ _ _ _) _
    · exact keeps_runBlocks (nm _ k4) _ (emits_momentum _ _ _ _ _ _) _
    · exact keeps_runBlocks (nm _ k5) _ (emits_others _ _) _

theorem lookup_filter {keep : String → Bool} {m : String} (hm : keep m = true) :
    ∀ cols : List (String × Series F), (cols.filter (fun c => keep c.1)).lookup m = cols.lookup m
  | [] => rfl
  | (a, t) :: rest => by
    rw [List.filter_cons]
    by_cases h : m = a
    · subst h; simp [hm]
    · have h2 : (m == a) = false := by simpa using h
      split_ifs
      · rw [List.lookup_cons, List.lookup_cons, h2, lookup_filter hm rest]
      · rw [List.lookup_cons, h2, lookup_filter hm rest]

/-- C52. In particular reading a column that is not generated gives the same before and after, on success and on failure. -/
theorem wrapper_get (fn : Fn) (df : Frame F) (open_ high low close volume pfx : String) (fillna vec : Bool) (m : String)
    (hm : ∀ p ∈ fn.features (F := F) vec, m ≠ pfx ++ p.1) :
    (fn.call df open_ high low close volume fillna pfx vec).1.get m = df.get m := by
  have h := (wrapper_keeps fn df open_ high low close volume pfx fillna vec (fun x => x == m)
    (fun p hp => by simpa using fun h => hm p hp h.symm)).1
  unfold Frame.get
  rw [← lookup_filter (keep := fun x => x == m) (m := m) (by simp), h,
    lookup_filter (keep := fun x => x == m) (m := m) (by simp)]

/-! ## C54, C55 -/

theorem sublist_features (fn : Fn) : (fn.features (F := F) true).Sublist (fn.features false) := by
  have h : ∀ (A B : List (String × Ind F)), (A ++ if true = true then [] else B).Sublist (A ++ if false = true then [] else B) := by
    intro A B
    simp
  have hV : (volumeF (F := F) true).Sublist (volumeF false) := h _ _
  have hA : (volatilityF (F := F) true).Sublist (volatilityF false) := h _ _
  have hT : (trendF (F := F) true).Sublist (trendF false) := h _ _
  have hM : (momentumF (F := F) true).Sublist (momentumF false) := h _ _
  cases fn with
  | volume => exact hV
  | volatility => exact hA
  | trend => exact hT
  | momentum => exact hM
  | others => exact List.Sublist.refl _
  | all => exact (((hV.append hA).append hT).append hM).append (List.Sublist.refl _)

theorem filled_ok {pfx : String} {fillna : Bool} {b : List (Bar F)} {fs : List (String × Ind F)} {df : Frame F} {r : Outcome F}
    (h : Filled pfx fillna b fs df r) (hok : r.2 = none) :
    ∃ g : Ind F → Series F, (∀ p ∈ fs, p.2.evalAt df.idx fillna b = .ok (g p.2)) ∧
      r.1.cols = df.cols ++ fs.map fun p => (pfx ++ p.1, g p.2) := by
  classical
  obtain ⟨vals, h1, _, h3, h4⟩ := h
  rw [hok] at h4
  replace h4 : vals.length = fs.length := h4
  rw [h4, List.take_length] at h1
  refine ⟨fun x => match x.evalAt df.idx fillna b with | .ok s => s | .error _ => [], ?_, ?_⟩
  · intro p hp
    obtain ⟨i, hi, rfl⟩ := List.mem_iff_getElem.mp hp
    have := h1.get hi (by omega)
    simp only [List.get_eq_getElem] at this
    rw [this]
    show _ = Except.ok (match Ind.evalAt df.idx fillna b fs[i].2 with | .ok s => s | .error _ => [])
    rw [this]
  · rw [h3]
    congr 1
    clear h3 h4 hok
    induction h1 with
    | nil => rfl
    | cons ha _ ih =>
      rw [List.zipWith_cons_cons, List.map_cons, ih]
      dsimp only
      rw [ha]

theorem ok_of_filled {pfx : String} {fillna : Bool} {b : List (Bar F)} {fs : List (String × Ind F)} {df : Frame F} {r : Outcome F}
    (h : Filled pfx fillna b fs df r) (hok : ∀ p ∈ fs, ∃ s, p.2.evalAt df.idx fillna b = .ok s) : r.2 = none := by
  obtain ⟨vals, _, _, _, h4⟩ := h
  rcases hx : r.2 with _ | e
  · rfl
  · rw [hx] at h4
    obtain ⟨p, hp, he⟩ := h4
    obtain ⟨s, hs⟩ := hok p (List.mem_of_getElem? hp)
    rw [hs] at he
    cases he

/-- C54. If the call succeeds, the call with `vectorized=True` succeeds too, and its columns are a sub-list of the columns of the
full call: same names, same values, same order. -/
theorem vectorized_sublist (fn : Fn) {df : Frame F} {open_ high low close volume pfx : String} {fillna : Bool} {b : List (Bar F)}
    (hr : fn.Reads df high low close volume b) (hf : fn.Fresh df pfx false)
    (hok : (fn.call df open_ high low close volume fillna pfx false).2 = none) :
    (fn.call df open_ high low close volume fillna pfx true).2 = none ∧
      (fn.call df open_ high low close volume fillna pfx true).1.cols.Sublist
        (fn.call df open_ high low close volume fillna pfx false).1.cols := by
  have hs := sublist_features (F := F) fn
  have h1 := wrapper_filled fn (open_ := open_) (fillna := fillna) hr hf
  have h2 := wrapper_filled fn (open_ := open_) (fillna := fillna) (vec := true) hr (fun p hp => hf p (hs.subset hp))
  obtain ⟨g, hg, hc⟩ := filled_ok h1 hok
  have h3 := ok_of_filled h2 (fun p hp => ⟨_, hg p (hs.subset hp)⟩)
  obtain ⟨g', hg', hc'⟩ := filled_ok h2 h3
  refine ⟨h3, ?_⟩
  rw [hc, hc']
  refine (List.Sublist.refl _).append ?_
  have : (fn.features (F := F) true).map (fun p => (pfx ++ p.1, g' p.2)) = (fn.features true).map (fun p => (pfx ++ p.1, g p.2)) := by
    refine List.map_congr_left ?_
    intro p hp
    have := (hg' p hp).symm.trans (hg p (hs.subset hp))
    rw [Except.ok.inj this]
  rw [this]
  exact hs.map _

/-- the assignments up to the first exception -/
def doneCols : List (String × Except PyErr (Series F)) → List (String × Series F)
  | (nm, .ok s) :: rest => (nm, s) :: doneCols rest
  | _ => []

/-- the first exception -/
def firstErr : List (String × Except PyErr (Series F)) → Option PyErr
  | [] => none
  | (_, .error e) :: _ => some e
  | (_, .ok _) :: rest => firstErr rest

theorem assignAll_err (pfx : String) : ∀ (L : List (String × Except PyErr (Series F))) (df : Frame F),
    (assignAll pfx L df).2 = firstErr L
  | [], _ => rfl
  | (_, .error _) :: _, _ => rfl
  | (_, .ok _) :: rest, _ => assignAll_err pfx rest _

theorem assignAll_done (pfx : String) : ∀ (L : List (String × Except PyErr (Series F))) (df : Frame F),
    (∀ p ∈ L, ∀ c ∈ df.cols, c.1 ≠ pfx ++ p.1) → (L.map (·.1)).Nodup →
      (assignAll pfx L df).1.cols = df.cols ++ (doneCols L).map (fun c => (pfx ++ c.1, c.2))
  | [], df, _, _ => by simp [assignAll, doneCols]
  | (_, .error e) :: _, df, _, _ => by simp [assignAll, doneCols]
  | (nm, .ok s) :: rest, df, hf, hn => by
    show (assignAll pfx rest (df.set (pfx ++ nm) s)).1.cols = _
    have hset : (df.set (pfx ++ nm) s).cols = df.cols ++ [(pfx ++ nm, s)] :=
      setCol_fresh _ _ _ (hf (nm, .ok s) List.mem_cons_self)
    rw [List.map_cons, List.nodup_cons] at hn
    rw [assignAll_done pfx rest _ ?_ hn.2, hset]
    · simp [doneCols]
    · intro q hq c hc
      rw [hset, List.mem_append, List.mem_singleton] at hc
      rcases hc with hc | rfl
      · exact hf q (List.mem_cons_of_mem _ hq) c hc
      · intro h
        exact hn.1 (List.mem_map.mpr ⟨q, hq, ((String.append_right_inj pfx).mp h).symm⟩)

/-- C55. The prefix only renames: two calls that differ in the prefix append the same values under the same unprefixed names,
in the same order, and end with the same exception, if any. -/
theorem prefix_renames (fn : Fn) {df : Frame F} {open_ high low close volume : String} (pfx pfx' : String) {fillna vec : Bool}
    {b : List (Bar F)} (hr : fn.Reads df high low close volume b) (hf : fn.Fresh df pfx vec) (hf' : fn.Fresh df pfx' vec) :
    ∃ new : List (String × Series F),
      (fn.call df open_ high low close volume fillna pfx vec).1.cols = df.cols ++ new.map (fun c => (pfx ++ c.1, c.2)) ∧
      (fn.call df open_ high low close volume fillna pfx' vec).1.cols = df.cols ++ new.map (fun c => (pfx' ++ c.1, c.2)) ∧
      (fn.call df open_ high low close volume fillna pfx vec).2 = (fn.call df open_ high low close volume fillna pfx' vec).2 := by
  rw [call_eq fn hr (noClash_of_fresh hr hf), call_eq fn hr (noClash_of_fresh hr hf')]
  have hn := nodup_features (F := F) fn vec
  have hn' : ((entries df.idx fillna b (fn.features vec)).map (·.1)).Nodup := by
    unfold entries; rw [List.map_map]; exact hn
  have fr : ∀ q : String, fn.Fresh df q vec → ∀ p ∈ entries df.idx fillna b (fn.features vec), ∀ c ∈ df.cols, c.1 ≠ q ++ p.1 := by
    intro q hq p hp
    obtain ⟨r, hr, rfl⟩ := List.mem_map.mp hp
    exact hq r hr
  exact ⟨_, assignAll_done pfx _ df (fr pfx hf) hn', assignAll_done pfx' _ df (fr pfx' hf') hn',
    by rw [assignAll_err, assignAll_err]⟩

/-- C55. The `open` argument is never looked at. -/
theorem open_unused (fn : Fn) (df : Frame F) (o o' high low close volume pfx : String) (fillna vec : Bool) :
    fn.call df o high low close volume fillna pfx vec = fn.call df o' high low close volume fillna pfx vec := by
  cases fn <;> rfl

/-! ## C56 -/

theorem evalAt_raises (x : Ind F) (idx : Idx) (fillna : Bool) (b : List (Bar F)) (e : PyErr) :
    x.evalAt idx fillna b = .error e ↔ x.raises fillna b.length (someNum b) e := by
  have hc : (closes b).length = b.length := by simp
  have h := raises_iff x fillna b e
  cases x <;> first
    | exact h
    | (simp only [Ind.evalAt, Ind.raises, map_err, PSAR.new, guard_err, hc])

theorem firstErr_none (idx : Idx) (fillna : Bool) (b : List (Bar F)) : ∀ (fs : List (String × Ind F)),
    (∀ p ∈ fs, ∀ e, ¬ p.2.raises fillna b.length (someNum b) e) → firstErr (entries idx fillna b fs) = none
  | [], _ => rfl
  | p :: rest, h => by
    rcases hx : p.2.evalAt idx fillna b with e | s
    · exact absurd ((evalAt_raises _ _ _ _ _).mp hx) (h p List.mem_cons_self e)
    · unfold entries
      rw [List.map_cons, hx]
      exact firstErr_none idx fillna b rest (fun q hq => h q (List.mem_cons_of_mem _ hq))

theorem firstErr_some (idx : Idx) (fillna : Bool) (b : List (Bar F)) (p : String × Ind F) (post : List (String × Ind F)) (e : PyErr)
    (hp : p.2.raises fillna b.length (someNum b) e) : ∀ (fs : List (String × Ind F)),
    (∀ p ∈ fs, ∀ e, ¬ p.2.raises fillna b.length (someNum b) e) → firstErr (entries idx fillna b (fs ++ p :: post)) = some e
  | [], _ => by
    unfold entries
    rw [List.nil_append, List.map_cons, (evalAt_raises _ _ _ _ _).mpr hp]
    rfl
  | q :: rest, h => by
    rcases hx : q.2.evalAt idx fillna b with e | s
    · exact absurd ((evalAt_raises _ _ _ _ _).mp hx) (h q List.mem_cons_self e)
    · unfold entries
      rw [List.cons_append, List.map_cons, hx]
      exact firstErr_some idx fillna b p post e hp rest (fun q hq => h q (List.mem_cons_of_mem _ hq))

/-- The exception of each function on `n` rows. -/
def Fn.exception (vec : Bool) (n : Nat) : Fn → Option PyErr
  | .volume => if vec then none else if n = 0 then some .indexError else none
  | .volatility => if vec then none else if n < 10 then some .indexError else none
  | .trend => if vec then none else if n < 13 then some .valueError else if n < 28 then some .indexError else none
  | .momentum => none
  | .others => if n = 0 then some .indexError else none
  | .all =>
    if vec then (if n = 0 then some .indexError else none)
    else if n < 10 then some .indexError else if n < 13 then some .valueError else if n < 28 then some .indexError else none

theorem calm_base (fillna : Bool) (n : Nat) (sn : Prop) :
    (∀ p ∈ volumeF (F := F) true, ∀ e, ¬ p.2.raises fillna n sn e) ∧
    (∀ p ∈ volatilityF (F := F) true, ∀ e, ¬ p.2.raises fillna n sn e) ∧
    (∀ p ∈ trendF (F := F) true, ∀ e, ¬ p.2.raises fillna n sn e) ∧
    (∀ vec, ∀ p ∈ momentumF (F := F) vec, ∀ e, ¬ p.2.raises fillna n sn e) := by
  refine ⟨?_, ?_, ?_, ?_⟩
  · simp [volumeF, Ind.raises]
  · simp [volatilityF, Ind.raises]
  · simp [trendF, Ind.raises]
  · intro vec
    cases vec <;> simp [momentumF, Ind.raises]

theorem calm_big (fillna : Bool) (n : Nat) (sn : Prop) :
    (n ≠ 0 → ∀ p ∈ volumeF (F := F) false, ∀ e, ¬ p.2.raises fillna n sn e) ∧
    (10 ≤ n → ∀ p ∈ volatilityF (F := F) false, ∀ e, ¬ p.2.raises fillna n sn e) ∧
    (28 ≤ n → ∀ p ∈ trendF (F := F) false, ∀ e, ¬ p.2.raises fillna n sn e) ∧
    (n ≠ 0 → ∀ p ∈ othersF (F := F), ∀ e, ¬ p.2.raises fillna n sn e) := by
  refine ⟨?_, ?_, ?_, ?_⟩
  · intro h; simp [volumeF, Ind.raises, h]
  · intro h; simp [volatilityF, Ind.raises]; omega
  · intro h
    simp [trendF, Ind.raises]
    exact ⟨fun e => ⟨by omega, by omega⟩, fun e => ⟨by omega, by omega⟩, by omega⟩
  · intro h; simp [othersF, Ind.raises, h]

theorem firstErr_at {idx : Idx} {fillna : Bool} {b : List (Bar F)} {fs : List (String × Ind F)} {e : PyErr}
    (pre post : List (String × Ind F)) (p : String × Ind F) (hfs : fs = pre ++ p :: post)
    (hpre : ∀ p ∈ pre, ∀ e, ¬ p.2.raises fillna b.length (someNum b) e)
    (hp : p.2.raises fillna b.length (someNum b) e) : firstErr (entries idx fillna b fs) = some e := by
  rw [hfs]
  exact firstErr_some idx fillna b p post e hp pre hpre

/-- the features of `add_trend_ta` after `trend_adx` -/
def adxRest : List (String × Ind F) := ((trendF false).drop 22)

theorem firstErr_exception (fn : Fn) (idx : Idx) (fillna vec : Bool) (b : List (Bar F)) :
    firstErr (entries idx fillna b (fn.features vec)) = fn.exception vec b.length := by
  obtain ⟨b1, b2, b3, b4⟩ := calm_base (F := F) fillna b.length (someNum b)
  obtain ⟨c1, c2, c3, c4⟩ := calm_big (F := F) fillna b.length (someNum b)
  generalize hn : b.length = n at *
  cases fn with
  | volume =>
    cases vec with
    | true => exact firstErr_none _ _ _ _ (hn ▸ b1)
    | false =>
      simp only [Fn.exception, Bool.false_eq_true, if_false]
      split_ifs with h
      · refine firstErr_at (volumeF true ++ [("volume_mfi", .mfi 14)]) [] ("volume_nvi", .nvi) (by rfl) ?_ ⟨by omega, rfl⟩
        simp only [List.forall_mem_append]
        exact ⟨hn ▸ b1, by simp [Ind.raises]⟩
      · exact firstErr_none _ _ _ _ (hn ▸ c1 h)
  | volatility =>
    cases vec with
    | true => exact firstErr_none _ _ _ _ (hn ▸ b2)
    | false =>
      simp only [Fn.exception, Bool.false_eq_true, if_false]
      split_ifs with h
      · exact firstErr_at (volatilityF true) [("volatility_ui", .ulcer 14)] ("volatility_atr", .atr 10) (by rfl) (hn ▸ b2) ⟨by omega, rfl⟩
      · exact firstErr_none _ _ _ _ (hn ▸ c2 (by omega))
  | trend =>
    cases vec with
    | true => exact firstErr_none _ _ _ _ (hn ▸ b3)
    | false =>
      simp only [Fn.exception, Bool.false_eq_true, if_false]
      split_ifs with h1 h2
      · exact firstErr_at (trendF true) adxRest ("trend_adx", .adx 14) (by rfl) (hn ▸ b3) (.inl ⟨by omega, rfl⟩)
      · exact firstErr_at (trendF true) adxRest ("trend_adx", .adx 14) (by rfl) (hn ▸ b3) (.inr ⟨by omega, by omega, by omega, rfl⟩)
      · exact firstErr_none _ _ _ _ (hn ▸ c3 (by omega))
  | momentum => exact firstErr_none _ _ _ _ (hn ▸ b4 vec)
  | others =>
    simp only [Fn.exception]
    split_ifs with h
    · exact firstErr_at [("others_dr", .dr), ("others_dlr", .dlr)] [] ("others_cr", .cr) (by rfl) (by simp [Ind.raises]) ⟨by omega, rfl⟩
    · exact firstErr_none _ _ _ _ (hn ▸ c4 h)
  | all =>
    cases vec with
    | true =>
      simp only [Fn.exception, if_true]
      split_ifs with h
      · refine firstErr_at (volumeF true ++ volatilityF true ++ trendF true ++ momentumF true ++
          [("others_dr", .dr), ("others_dlr", .dlr)]) [] ("others_cr", .cr) ?_ ?_ ⟨by omega, rfl⟩
        · rfl
        · simp only [List.forall_mem_append]
          rw [hn]
          exact ⟨⟨⟨⟨b1, b2⟩, b3⟩, b4 true⟩, by simp [Ind.raises]⟩
      · refine firstErr_none _ _ _ _ ?_
        show ∀ p ∈ allF true, _
        simp only [allF, List.forall_mem_append]
        rw [hn]
        exact ⟨⟨⟨⟨b1, b2⟩, b3⟩, b4 true⟩, c4 h⟩
    | false =>
      simp only [Fn.exception, Bool.false_eq_true, if_false]
      by_cases h0 : n = 0
      · rw [if_pos (by omega)]
        refine firstErr_at (volumeF true ++ [("volume_mfi", .mfi 14)]) (volatilityF false ++ trendF false ++ momentumF false ++ othersF)
          ("volume_nvi", .nvi) (by rfl) ?_ ⟨by omega, rfl⟩
        simp only [List.forall_mem_append]
        exact ⟨hn ▸ b1, by simp [Ind.raises]⟩
      have c1 := c1 h0
      have c4 := c4 h0
      split_ifs with h1 h2 h3
      · refine firstErr_at (volumeF false ++ volatilityF true) (("volatility_ui", .ulcer 14) :: (trendF false ++ momentumF false ++ othersF))
          ("volatility_atr", .atr 10) (by rfl) ?_ ⟨by omega, rfl⟩
        simp only [List.forall_mem_append]
        rw [hn]
        exact ⟨c1, b2⟩
      · refine firstErr_at (volumeF false ++ volatilityF false ++ trendF true) (adxRest ++ momentumF false ++ othersF) ("trend_adx", .adx 14) (by rfl) ?_ (.inl ⟨by omega, rfl⟩)
        simp only [List.forall_mem_append]
        rw [hn]
        exact ⟨⟨c1, c2 (by omega)⟩, b3⟩
      · refine firstErr_at (volumeF false ++ volatilityF false ++ trendF true) (adxRest ++ momentumF false ++ othersF) ("trend_adx", .adx 14) (by rfl) ?_
          (.inr ⟨by omega, by omega, by omega, rfl⟩)
        simp only [List.forall_mem_append]
        rw [hn]
        exact ⟨⟨c1, c2 (by omega)⟩, b3⟩
      · refine firstErr_none _ _ _ _ ?_
        show ∀ p ∈ allF false, _
        simp only [allF, List.forall_mem_append]
        rw [hn]
        exact ⟨⟨⟨⟨c1, c2 (by omega)⟩, c3 (by omega)⟩, b4 false⟩, c4⟩

/-- C56. With its input columns present (and no generated name equal to one of them), each function succeeds or raises by the
number of rows alone, whatever the data, the parameters of the call and the index. -/
theorem wrapper_exception (fn : Fn) {df : Frame F} {open_ high low close volume pfx : String} {fillna vec : Bool} {b : List (Bar F)}
    (hr : fn.Reads df high low close volume b) (hc : fn.NoClash F high low close volume pfx vec) :
    (fn.call df open_ high low close volume fillna pfx vec).2 = fn.exception vec b.length := by
  rw [call_eq fn hr hc, assignAll_err, firstErr_exception]

/-- C56. `add_all_ta_features` succeeds exactly from 28 rows on, or from one row on with `vectorized=True`. -/
theorem all_succeeds_iff {df : Frame F} {open_ high low close volume pfx : String} {fillna vec : Bool} {b : List (Bar F)}
    (hr : Fn.all.Reads df high low close volume b) (hc : Fn.all.NoClash F high low close volume pfx vec) :
    (addAllTaFeatures df open_ high low close volume fillna pfx vec).2 = none ↔ (if vec then 1 else 28) ≤ b.length := by
  have h := wrapper_exception .all (open_ := open_) (fillna := fillna) hr hc
  have h' : (addAllTaFeatures df open_ high low close volume fillna pfx vec).2 = Fn.exception vec b.length .all := h
  rw [h']
  cases vec with
  | true =>
    simp only [Fn.exception, if_true]
    split_ifs with h1 <;> simp only [false_iff, true_iff] <;> omega
  | false =>
    simp only [Fn.exception, Bool.false_eq_true, if_false]
    split_ifs with h1 h2 h3 <;> simp only [false_iff, true_iff] <;> omega

/-! ### missing columns -/

theorem get_err {df : Frame F} {m : String} {e : PyErr} (h : df.get m = .error e) : e = .keyError := by
  unfold Frame.get at h
  split at h
  · cases h
  · exact (Except.error.inj h).symm

/-- this computation gives only columns, or stops with `KeyError` -/
def KeyOnly (x : Except PyErr (List (String × Except PyErr (Series F)))) : Prop :=
  (∃ L, x = .ok L ∧ firstErr L = none) ∨ x = .error .keyError

theorem keyOnly_get {df : Frame F} {m : String} {f : Series F → Except PyErr (List (String × Except PyErr (Series F)))}
    (h : ∀ s, KeyOnly (f s)) : KeyOnly (df.get m >>= f) := by
  rcases hx : df.get m with e | s
  · exact .inr (by rw [get_err hx]; rfl)
  · exact h s

theorem keyOnly_ok {α : Type} {x : Except PyErr α} {f : α → Except PyErr (List (String × Except PyErr (Series F)))}
    (hx : ∃ a, x = .ok a) (h : ∀ a, KeyOnly (f a)) : KeyOnly (x >>= f) := by
  obtain ⟨a, rfl⟩ := hx
  exact h a

theorem keyOnly_pure {L : List (String × Except PyErr (Series F))} (h : firstErr L = none) : KeyOnly (pure L) :=
  .inl ⟨L, rfl, h⟩

theorem key_get {df : Frame F} {m : String} {f : Series F → Except PyErr (List (String × Except PyErr (Series F)))}
    (h : ∀ s, df.get m = .ok s → f s = .error .keyError) : (df.get m >>= f) = .error .keyError := by
  rcases hx : df.get m with e | s
  · rw [get_err hx]; rfl
  · exact h s hx

/-- The constructors the wrapper calls before the last column is read never raise. -/
theorem ctor_ok (c : Series F) (b : Bool) :
    (∃ o, MACD.new c 26 12 9 b = .ok o) ∧ (∃ o, emaIndicator c 12 b = .ok o) ∧ (∃ o, emaIndicator c 26 b = .ok o) ∧
    (∃ o, rsi c 14 b = .ok o) ∧ (∃ o, StochRSI.new c 14 3 3 b = .ok o) ∧ (∃ o, tsi c 25 13 b = .ok o) ∧
    (∃ o, PPO.new c 26 12 9 b = .ok o) := by
  refine ⟨⟨_, by rw [MACD.new_eq, if_neg (by omega)]⟩, ⟨_, by rw [emaIndicator_eq, if_neg (by omega)]⟩,
    ⟨_, by rw [emaIndicator_eq, if_neg (by omega)]⟩, ⟨_, by rw [rsi, if_neg (by omega)]⟩, ⟨_, by rw [StochRSI.new_eq, if_neg (by omega)]⟩,
    ⟨_, by rw [tsi_eq, if_neg (by omega)]⟩, ⟨_, by rw [PPO.new_eq, if_neg (by omega)]⟩⟩

/-- a block without raising calls -/
local macro "konly" : tactic => `(tactic| (
  intro df
  repeat (refine keyOnly_get ?_; intro _)
  exact keyOnly_pure rfl))

/-- a block that reads one column and calls one constructor -/
theorem keyOnly_ctor {α : Type} {m : String} {f : Series F → Except PyErr α} {g : α → List (String × Except PyErr (Series F))}
    (hf : ∀ s, ∃ o, f s = .ok o) (hg : ∀ o, firstErr (g o) = none) :
    ∀ df : Frame F, KeyOnly (df.get m >>= fun s => f s >>= fun o => pure (g o)) := by
  intro df
  refine keyOnly_get fun s => keyOnly_ok (hf s) fun o => keyOnly_pure (hg o)

set_option hygiene false in
/-- the block reads the missing column -/
local macro "miss" : tactic => `(tactic| (
  intro df hm
  repeat (refine key_get fun _ hs => ?_; first | exact absurd (hs.symm.trans hm) (fun h => by cases h) | skip)))

/-- some block reads the missing column `m`, and the blocks before it can only fail with `KeyError` -/
def KeyRun (m : String) : List (Block F) → Prop
  | [] => False
  | blk :: rest => (∀ df : Frame F, df.get m = .error .keyError → blk df = .error .keyError) ∨
      ((∀ df, KeyOnly (blk df)) ∧ KeyRun m rest)

theorem keyRun_runs {pfx m : String} {ns : List String} (hm : ∀ n ∈ ns, m ≠ pfx ++ n) : ∀ {bs : List (Block F)},
    (∀ c ∈ bs, ∀ df, Emits ns (c df)) → KeyRun m bs → ∀ df : Frame F, df.get m = .error .keyError →
      (runBlocks pfx bs df).2 = some .keyError
  | [], _, h, _, _ => h.elim
  | blk :: rest, he, h, df, hg => by
    rcases h with h | ⟨h, hr⟩
    · unfold runBlocks runBlock
      rw [h df hg]
    · unfold runBlocks runBlock
      rcases h df with ⟨L, hL, hE⟩ | h1
      · rw [hL]
        dsimp only
        have e1 := assignAll_err pfx L df
        rw [hE] at e1
        have e2 := get_assignAll pfx m L df (fun q hq => hm _ (he blk List.mem_cons_self df L hL q hq))
        rcases hx : assignAll pfx L df with ⟨d, _ | e⟩
        · rw [hx] at e2
          exact keyRun_runs hm (fun c hc => he c (List.mem_cons_of_mem _ hc)) hr d (e2.trans hg)
        · rw [hx] at e1; cases e1
      · rw [h1]

theorem volume_missing (df : Frame F) (high low close volume pfx : String) (fillna vec : Bool) (n : String)
    (hn : n ∈ [high, low, close, volume]) (hg : df.get n = .error .keyError) :
    addVolumeTa df high low close volume fillna pfx vec = (df, some .keyError) := by
  unfold addVolumeTa volumeBlocks
  rw [List.cons_append]
  unfold runBlocks runBlock
  have : ∀ f : Series F → Series F → Series F → Series F → Except PyErr (List (String × Except PyErr (Series F))),
      (do let h ← df.get high; let l ← df.get low; let c ← df.get close; let v ← df.get volume; f h l c v)
        = .error PyErr.keyError := by
    intro f
    simp only [List.mem_cons, List.not_mem_nil, or_false] at hn
    rcases hn with rfl | rfl | rfl | rfl
    · rw [hg]; rfl
    · refine key_get fun _ _ => ?_
      rw [hg]; rfl
    · refine key_get fun _ _ => key_get fun _ _ => ?_
      rw [hg]; rfl
    · refine key_get fun _ _ => key_get fun _ _ => key_get fun _ _ => ?_
      rw [hg]; rfl
  have h1 := this (fun h l c v => pure [("volume_adi", .ok (accDistIndex h l c v fillna))])
  dsimp only
  rw [h1]

/-- C56. If one of the columns the function reads is missing (and its name is not a generated one), the call ends with
`KeyError`, however many rows there are. -/
theorem missing_column (fn : Fn) (df : Frame F) (open_ high low close volume pfx : String) (fillna vec : Bool)
    (hc : fn.NoClash F high low close volume pfx vec)
    (hm : ∃ m ∈ fn.inputs (F := F) high low close volume, df.get m.1 = .error .keyError) :
    (fn.call df open_ high low close volume fillna pfx vec).2 = some .keyError := by
  obtain ⟨m, hm, hg⟩ := hm
  have nm : ∀ n ∈ names (fn.features (F := F) vec), m.1 ≠ pfx ++ n := by
    intro n hn
    obtain ⟨p, hp, rfl⟩ := List.mem_map.mp hn
    exact hc p hp m hm
  cases fn with
  | volume =>
    simp only [Fn.inputs, List.mem_cons, List.not_mem_nil, or_false] at hm
    show (addVolumeTa df high low close volume fillna pfx vec).2 = _
    rw [volume_missing df high low close volume pfx fillna vec m.1 (by rcases hm with rfl | rfl | rfl | rfl <;> simp) hg]
  | all =>
    simp only [Fn.inputs, List.mem_cons, List.not_mem_nil, or_false] at hm
    show (addAllTaFeatures df open_ high low close volume fillna pfx vec).2 = _
    unfold addAllTaFeatures
    rw [volume_missing df high low close volume pfx fillna vec m.1 (by rcases hm with rfl | rfl | rfl | rfl <;> simp) hg]
    rfl
  | volatility =>
    refine keyRun_runs nm (emits_volatility high low close fillna vec) ?_ df hg
    simp only [Fn.inputs, List.mem_cons, List.not_mem_nil, or_false] at hm
    rcases hm with rfl | rfl | rfl
    · exact .inr ⟨by konly, .inl (by miss)⟩
    · exact .inr ⟨by konly, .inl (by miss)⟩
    · exact .inl (by miss)
  | trend =>
    refine keyRun_runs nm (emits_trend high low close fillna vec) ?_ df hg
    have k1 := keyOnly_ctor (F := F) (m := close) (f := fun c => MACD.new c 26 12 9 fillna)
      (g := fun o => [("trend_macd", .ok o.macd), ("trend_macd_signal", .ok o.macdSignal), ("trend_macd_diff", .ok o.macdDiff)])
      (fun s => (ctor_ok s fillna).1) (fun _ => rfl)
    have k2 := keyOnly_ctor (F := F) (m := close) (f := fun c => emaIndicator c 12 fillna)
      (g := fun r => [("trend_ema_fast", .ok r)]) (fun s => (ctor_ok s fillna).2.1) (fun _ => rfl)
    have k3 := keyOnly_ctor (F := F) (m := close) (f := fun c => emaIndicator c 26 fillna)
      (g := fun r => [("trend_ema_slow", .ok r)]) (fun s => (ctor_ok s fillna).2.2.1) (fun _ => rfl)
    simp only [Fn.inputs, List.mem_cons, List.not_mem_nil, or_false] at hm
    rcases hm with rfl | rfl | rfl
    · exact .inr ⟨k1, .inr ⟨by konly, .inr ⟨by konly, .inr ⟨k2, .inr ⟨k3, .inl (by miss)⟩⟩⟩⟩⟩
    · exact .inr ⟨k1, .inr ⟨by konly, .inr ⟨by konly, .inr ⟨k2, .inr ⟨k3, .inl (by miss)⟩⟩⟩⟩⟩
    · exact .inl (by miss)
  | momentum =>
    refine keyRun_runs nm (emits_momentum high low close volume fillna vec) ?_ df hg
    have k1 := keyOnly_ctor (F := F) (m := close) (f := fun c => rsi c 14 fillna)
      (g := fun r => [("momentum_rsi", .ok r)]) (fun s => (ctor_ok s fillna).2.2.2.1) (fun _ => rfl)
    have k2 := keyOnly_ctor (F := F) (m := close) (f := fun c => StochRSI.new c 14 3 3 fillna)
      (g := fun o => [("momentum_stoch_rsi", .ok o.stochrsi), ("momentum_stoch_rsi_k", .ok o.stochrsiK),
              ("momentum_stoch_rsi_d", .ok o.stochrsiD)]) (fun s => (ctor_ok s fillna).2.2.2.2.1) (fun _ => rfl)
    have k3 := keyOnly_ctor (F := F) (m := close) (f := fun c => tsi c 25 13 fillna)
      (g := fun r => [("momentum_tsi", .ok r)]) (fun s => (ctor_ok s fillna).2.2.2.2.2.1) (fun _ => rfl)
    have k4 := keyOnly_ctor (F := F) (m := close) (f := fun c => PPO.new c 26 12 9 fillna)
      (g := fun o => [("momentum_ppo", .ok o.ppo), ("momentum_ppo_signal", .ok o.ppoSignal),
              ("momentum_ppo_hist", .ok o.ppoHist)]) (fun s => (ctor_ok s fillna).2.2.2.2.2.2) (fun _ => rfl)
    simp only [Fn.inputs, List.mem_cons, List.not_mem_nil, or_false] at hm
    rcases hm with rfl | rfl | rfl | rfl
    · exact .inr ⟨k1, .inr ⟨k2, .inr ⟨k3, .inl (by miss)⟩⟩⟩
    · exact .inr ⟨k1, .inr ⟨k2, .inr ⟨k3, .inl (by miss)⟩⟩⟩
    · exact .inl (by miss)
    · exact .inr ⟨k1, .inr ⟨k2, .inr ⟨k3, .inr ⟨by konly, .inr ⟨by konly, .inr ⟨by konly, .inr ⟨by konly,
        .inr ⟨by konly, .inr ⟨k4, .inl (by miss)⟩⟩⟩⟩⟩⟩⟩⟩⟩
  | others =>
    refine keyRun_runs nm (emits_others close fillna) ?_ df hg
    simp only [Fn.inputs, List.mem_cons, List.not_mem_nil, or_false] at hm
    subst hm
    exact .inl (by miss)

/-- C56. `add_all_ta_features` finds out about a missing column before it adds anything: the frame is unchanged. -/
theorem all_missing_unchanged (df : Frame F) (open_ high low close volume pfx : String) (fillna vec : Bool) (n : String)
    (hn : n ∈ [high, low, close, volume]) (hg : df.get n = .error .keyError) :
    addAllTaFeatures df open_ high low close volume fillna pfx vec = (df, some .keyError) := by
  unfold addAllTaFeatures
  rw [volume_missing df high low close volume pfx fillna vec n hn hg]
  rfl

/-! ## C65: calling twice -/

theorem setCol_same {name : String} {s : Series F} : ∀ {cols : List (String × Series F)}, cols.lookup name = some s →
    setCol name s cols = cols
  | [], h => by cases h
  | (a, t) :: rest, h => by
    unfold setCol
    by_cases ha : a = name
    · subst ha
      rw [if_pos rfl]
      rw [List.lookup_cons_self] at h
      rw [Option.some.inj h]
    · rw [if_neg ha]
      have h2 : (name == a) = false := by simpa using fun h => ha h.symm
      rw [List.lookup_cons, h2] at h
      rw [setCol_same h]

theorem assignAll_same (pfx : String) : ∀ (L : List (String × Except PyErr (Series F))) (df : Frame F), firstErr L = none →
    (∀ p ∈ L, df.get (pfx ++ p.1) = p.2) → assignAll pfx L df = (df, none)
  | [], _, _, _ => rfl
  | (_, .error _) :: _, _, h, _ => by cases h
  | (nm, .ok s) :: rest, df, h, hg => by
    have h1 := hg (nm, .ok s) List.mem_cons_self
    have h2 : df.cols.lookup (pfx ++ nm) = some s := by
      simp only [Frame.get] at h1
      split at h1
      · rename_i t ht; rw [ht, Except.ok.inj h1]
      · cases h1
    have h3 : df.set (pfx ++ nm) s = df := by
      unfold Frame.set
      rw [setCol_same h2]
    show assignAll pfx rest (df.set (pfx ++ nm) s) = _
    rw [h3]
    exact assignAll_same pfx rest df h (fun p hp => hg p (List.mem_cons_of_mem _ hp))

/-- C65. Calling a wrapper function again on its own result changes nothing: same columns, same order, same values. -/
theorem wrapper_twice (fn : Fn) {df : Frame F} {open_ high low close volume pfx : String} {fillna vec : Bool} {b : List (Bar F)}
    (hr : fn.Reads df high low close volume b) (hc : fn.NoClash F high low close volume pfx vec)
    (hok : (fn.call df open_ high low close volume fillna pfx vec).2 = none) :
    fn.call (fn.call df open_ high low close volume fillna pfx vec).1 open_ high low close volume fillna pfx vec
      = fn.call df open_ high low close volume fillna pfx vec := by
  have hv := wrapper_values fn hr hc hok
  have hi := (wrapper_keeps fn df open_ high low close volume pfx fillna vec (fun _ => false) (fun _ _ => rfl)).2
  have hr' : fn.Reads (fn.call df open_ high low close volume fillna pfx vec).1 high low close volume b := by
    intro p hp
    rw [wrapper_get fn df open_ high low close volume pfx fillna vec p.1 (fun q hq => hc q hq p hp)]
    exact hr p hp
  have hex := wrapper_exception fn (open_ := open_) (fillna := fillna) hr hc
  generalize fn.call df open_ high low close volume fillna pfx vec = r at hv hi hr' hok hex ⊢
  rw [call_eq fn hr' hc, assignAll_same]
  · rcases r with ⟨d, o⟩
    cases hok; rfl
  · rw [firstErr_exception, ← hex, hok]
  · intro p hp
    obtain ⟨q, hq, rfl⟩ := List.mem_map.mp hp
    rw [hi]
    exact hv q hq

/-! ## Examples -/

section
attribute [local instance] toyFn

/-- three bars -/
def ohlc : List (Bar (Val ℚ)) := [qbar 3 1 2 10, qbar 4 2 3 20, qbar 5 1 4 30]

/-- a frame with a label index, an extra column and the bars -/
def ohlcF : Frame (Val ℚ) :=
  { idx := .labels [7, 8, 9], cols := [("note", qs [1, 1, 1]), ("High", highs ohlc), ("Low", lows ohlc), ("Close", closes ohlc),
      ("Volume", volumes ohlc)] }

theorem ohlc_reads (fn : Fn) : fn.Reads ohlcF "High" "Low" "Close" "Volume" ohlc := by
  intro p hp
  have : p.1 = "High" ∧ p.2 = (·.high) ∨ p.1 = "Low" ∧ p.2 = (·.low) ∨ p.1 = "Close" ∧ p.2 = (·.close) ∨
      p.1 = "Volume" ∧ p.2 = (·.volume) := by
    cases fn <;> simp only [Fn.inputs, List.mem_cons, List.not_mem_nil, or_false] at hp <;>
      first
      | (rcases hp with rfl | rfl | rfl | rfl <;> simp)
  rcases this with ⟨h1, h2⟩ | ⟨h1, h2⟩ | ⟨h1, h2⟩ | ⟨h1, h2⟩ <;> rw [h1, h2] <;> decide +kernel

theorem ohlc_fresh (fn : Fn) (vec : Bool) : fn.Fresh ohlcF "ta_" vec := by
  have : ∀ n ∈ names (fn.features (F := Val ℚ) vec), ∀ c ∈ ohlcF.cols.map (·.1), c ≠ "ta_" ++ n := by
    cases fn <;> cases vec <;> decide +kernel
  intro p hp c hc
  exact this p.1 (List.mem_map_of_mem hp) c.1 (List.mem_map_of_mem hc)

/-- the hypotheses of the theorems hold of this frame, and the three rows fail the full call but not the vectorized one -/
example : (Fn.all.call ohlcF "Open" "High" "Low" "Close" "Volume" false "ta_" true).2 = none ∧
    (Fn.all.call ohlcF "Open" "High" "Low" "Close" "Volume" false "ta_" false).2 = some .indexError :=
  ⟨wrapper_exception .all (ohlc_reads _) (noClash_of_fresh (ohlc_reads _) (ohlc_fresh _ _)),
   wrapper_exception .all (ohlc_reads _) (noClash_of_fresh (ohlc_reads _) (ohlc_fresh _ _))⟩

/-- the failing call has added the volume columns and the first volatility columns -/
example : ((addVolatilityTa ohlcF "High" "Low" "Close" false "ta_").1.cols.map (·.1)).length = 5 + 19 ∧
    (addVolatilityTa ohlcF "High" "Low" "Close" false "ta_").2 = some .indexError := by decide +kernel

/-- values: on-balance volume and force index by hand -/
example : (addVolumeTa ohlcF "High" "Low" "Close" "Volume" true "ta_").1.get "ta_volume_obv" = .ok (qs [10, 30, 60]) ∧
    (addVolumeTa ohlcF "High" "Low" "Close" "Volume" true "ta_").1.get "note" = .ok (qs [1, 1, 1]) ∧
    (addVolumeTa ohlcF "High" "Low" "Close" "Volume" true "ta_").1.cols.map (·.1) = ["note", "High", "Low", "Close", "Volume",
      "ta_volume_adi", "ta_volume_obv", "ta_volume_cmf", "ta_volume_fi", "ta_volume_em", "ta_volume_sma_em", "ta_volume_vpt",
      "ta_volume_vwap", "ta_volume_mfi", "ta_volume_nvi"] := by decide +kernel

/-- a missing column -/
example : (addTrendTa ohlcF "high" "Low" "Close").2 = some .keyError ∧
    (addTrendTa ohlcF "high" "Low" "Close").1.cols.length = 5 + 7 := by decide +kernel

/-- C53. The hypothesis on names is needed: if the volume column is called `volume_adi`, the ADI overwrites it, and the
on-balance volume that follows is computed from the ADI. -/
theorem clash_matters : ∃ (df : Frame (Val ℚ)) (v : String) (b : List (Bar (Val ℚ))),
    Fn.volume.Reads df "High" "Low" "Close" v b ∧ (addVolumeTa df "High" "Low" "Close" v).2 = none ∧
    (addVolumeTa df "High" "Low" "Close" v).1.get v ≠ df.get v ∧
    (addVolumeTa df "High" "Low" "Close" v).1.get "volume_obv" ≠ .ok (onBalanceVolume (closes b) (volumes b) false) := by
  refine ⟨{ idx := .positional, cols := [("High", highs ohlc), ("Low", lows ohlc), ("Close", closes ohlc),
    ("volume_adi", volumes ohlc)] }, "volume_adi", ohlc, ?_, by decide +kernel, by decide +kernel, by decide +kernel⟩
  intro p hp
  simp only [Fn.inputs, List.mem_cons, List.not_mem_nil, or_false] at hp
  rcases hp with rfl | rfl | rfl | rfl <;> decide +kernel

end
end TA
