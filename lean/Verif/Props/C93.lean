import Verif.Props.C92
import Verif.Lemmas.Look

/-!
# C93 — Which rows the answer has

The four columns may be labelled differently.  `Ind.rowCols` lists, for each of the 84 outputs, the columns that have a say in the rows of the
answer.  If these columns are labelled alike the answer has their labels, in their order; otherwise it has every label that occurs in one of them,
once, in increasing order (`Joined`).  So one column out of step adds rows to most answers, and re-sorts them; the other columns leave no trace in
the index, although they are used.
-/

namespace TA

/-! ## the labels of a join -/

section join
variable {L : Type} [LinearOrder L]

theorem mem_insL {x y : L} {l : List L} : y ∈ insL x l ↔ y = x ∨ y ∈ l := by
  induction l with
  | nil => simp [insL]
  | cons z l ih =>
    unfold insL
    split_ifs with h1 h2
    · simp
    · subst h2; simp
    · simp only [List.mem_cons, ih]; tauto

theorem mem_sortL {y : L} {l : List L} : y ∈ sortL l ↔ y ∈ l := by
  induction l with
  | nil => simp [sortL]
  | cons z l ih => rw [sortL, List.foldr_cons, mem_insL, List.mem_cons, ← ih]; rfl

theorem incr_insL {x : L} {l : List L} (h : l.Pairwise (· < ·)) : (insL x l).Pairwise (· < ·) := by
  induction l with
  | nil => simp [insL]
  | cons z l ih =>
    rw [List.pairwise_cons] at h
    unfold insL
    split_ifs with h1 h2
    · refine List.pairwise_cons.2 ⟨fun y hy => ?_, List.pairwise_cons.2 h⟩
      rcases List.mem_cons.1 hy with rfl | hy
      · exact h1
      · exact h1.trans (h.1 y hy)
    · exact List.pairwise_cons.2 h
    · refine List.pairwise_cons.2 ⟨fun y hy => ?_, ih h.2⟩
      rcases mem_insL.1 hy with rfl | hy
      · exact lt_of_le_of_ne (not_lt.1 h1) (Ne.symm h2)
      · exact h.1 y hy

theorem incr_sortL (l : List L) : (sortL l).Pairwise (· < ·) := by
  induction l with
  | nil => simp [sortL]
  | cons z l ih => rw [sortL, List.foldr_cons]; exact incr_insL ih

/-- increasing lists with the same members are equal -/
theorem incr_ext {a b : List L} (ha : a.Pairwise (· < ·)) (hb : b.Pairwise (· < ·)) (h : ∀ x, x ∈ a ↔ x ∈ b) : a = b := by
  induction a generalizing b with
  | nil => cases b with
    | nil => rfl
    | cons y b => exact absurd ((h y).2 (by simp)) (by simp)
  | cons x a ih =>
    cases b with
    | nil => exact absurd ((h x).1 (by simp)) (by simp)
    | cons y b =>
      rw [List.pairwise_cons] at ha hb
      have hxy : x = y := by
        rcases List.mem_cons.1 ((h x).1 (by simp)) with e | hx
        · exact e
        · rcases List.mem_cons.1 ((h y).2 (by simp)) with e | hy
          · exact e.symm
          · exact absurd ((hb.1 x hx).trans (ha.1 y hy)) (lt_irrefl _)
      subst hxy
      refine congrArg _ (ih ha.2 hb.2 fun z => ⟨fun hz => ?_, fun hz => ?_⟩)
      · rcases List.mem_cons.1 ((h z).1 (List.mem_cons_of_mem _ hz)) with e | hz'
        · exact absurd (e ▸ ha.1 z hz) (lt_irrefl _)
        · exact hz'
      · rcases List.mem_cons.1 ((h z).2 (List.mem_cons_of_mem _ hz)) with e | hz'
        · exact absurd (e ▸ hb.1 z hz) (lt_irrefl _)
        · exact hz'

/-- `u` is what an outer join makes of the indexes `cols`: the common index if there is one, else all labels in increasing order -/
def Joined (cols : List (List L)) (u : List L) : Prop :=
  (∀ a ∈ cols, a = u) ∨ ((¬∀ a ∈ cols, ∀ b ∈ cols, a = b) ∧ u.Pairwise (· < ·) ∧ ∀ x, x ∈ u ↔ ∃ a ∈ cols, x ∈ a)

theorem joinIdx_of {a b : List L} (ha : a ≠ []) (hb : b ≠ []) : joinIdx a b = if a = b then a else sortL (a ++ b) := by
  unfold joinIdx; rw [if_neg hb, if_neg ha]

theorem Joined.nonempty {cols : List (List L)} {u : List L} (h : Joined cols u) (hc : cols ≠ []) (hn : ∀ a ∈ cols, a ≠ []) : u ≠ [] := by
  obtain ⟨a, ha⟩ := List.exists_mem_of_ne_nil _ hc
  rcases h with h | ⟨-, -, h⟩
  · exact h a ha ▸ hn a ha
  · obtain ⟨x, hx⟩ := List.exists_mem_of_ne_nil _ (hn a ha)
    exact List.ne_nil_of_mem ((h x).2 ⟨a, ha, hx⟩)

theorem Joined.mem {cols : List (List L)} {u : List L} (h : Joined cols u) (hc : cols ≠ []) (x : L) : x ∈ u ↔ ∃ a ∈ cols, x ∈ a := by
  rcases h with h | ⟨-, -, h⟩
  · obtain ⟨a, ha⟩ := List.exists_mem_of_ne_nil _ hc
    exact ⟨fun hx => ⟨a, ha, (h a ha).symm ▸ hx⟩, fun ⟨b, hb, hx⟩ => h b hb ▸ hx⟩
  · exact h x

theorem Joined.join {A B : List (List L)} {x y : List L} (hx : Joined A x) (hy : Joined B y) (hA : A ≠ []) (hB : B ≠ [])
    (nA : ∀ a ∈ A, a ≠ []) (nB : ∀ a ∈ B, a ≠ []) : Joined (A ++ B) (joinIdx x y) := by
  rw [joinIdx_of (hx.nonempty hA nA) (hy.nonempty hB nB)]
  have mx := hx.mem hA
  have my := hy.mem hB
  obtain ⟨a, ha⟩ := List.exists_mem_of_ne_nil _ hA
  obtain ⟨b, hb⟩ := List.exists_mem_of_ne_nil _ hB
  split_ifs with e
  · subst e
    rcases hx with hx | ⟨n, sx, -⟩
    · rcases hy with hy | ⟨n, sy, -⟩
      · exact .inl fun c hc => (List.mem_append.1 hc).elim (hx c) (hy c)
      · refine .inr ⟨fun h => n fun c hc d hd => h c (by simp [hc]) d (by simp [hd]), sy, fun z => ?_⟩
        constructor
        · intro hz; obtain ⟨c, hc, h⟩ := (mx z).1 hz; exact ⟨c, by simp [hc], h⟩
        · rintro ⟨c, hc, h⟩
          rcases List.mem_append.1 hc with hc | hc
          · exact (mx z).2 ⟨c, hc, h⟩
          · exact (my z).2 ⟨c, hc, h⟩
    · refine .inr ⟨fun h => n fun c hc d hd => h c (by simp [hc]) d (by simp [hd]), sx, fun z => ?_⟩
      constructor
      · intro hz; obtain ⟨c, hc, h⟩ := (mx z).1 hz; exact ⟨c, by simp [hc], h⟩
      · rintro ⟨c, hc, h⟩
        rcases List.mem_append.1 hc with hc | hc
        · exact (mx z).2 ⟨c, hc, h⟩
        · exact (my z).2 ⟨c, hc, h⟩
  · refine .inr ⟨fun h => e ?_, incr_sortL _, fun z => ?_⟩
    · rcases hx with hx | ⟨n, -⟩
      · rcases hy with hy | ⟨n, -⟩
        · rw [← hx a ha, ← hy b hb]; exact h a (by simp [ha]) b (by simp [hb])
        · exact absurd (fun c hc d hd => h c (by simp [hc]) d (by simp [hd])) n
      · exact absurd (fun c hc d hd => h c (by simp [hc]) d (by simp [hd])) n
    · rw [mem_sortL, List.mem_append, mx, my]
      constructor
      · rintro (⟨c, hc, h⟩ | ⟨c, hc, h⟩)
        · exact ⟨c, by simp [hc], h⟩
        · exact ⟨c, by simp [hc], h⟩
      · rintro ⟨c, hc, h⟩
        rcases List.mem_append.1 hc with hc | hc
        · exact .inl ⟨c, hc, h⟩
        · exact .inr ⟨c, hc, h⟩

/-- it only matters which indexes occur -/
theorem Joined.congr {A B : List (List L)} {u : List L} (h : Joined A u) (e : ∀ a, a ∈ A ↔ a ∈ B) : Joined B u := by
  rcases h with h | ⟨n, s, m⟩
  · exact .inl fun a ha => h a ((e a).2 ha)
  · refine .inr ⟨fun h => n fun a ha b hb => h a ((e a).1 ha) b ((e b).1 hb), s, fun x => (m x).trans ?_⟩
    exact exists_congr fun a => by rw [e a]

theorem joined_one (a : List L) : Joined [a] a := .inl fun _ hb => List.mem_singleton.1 hb

/-- the labels of the result are unique -/
theorem Joined.unique {A : List (List L)} {u v : List L} (hA : A ≠ []) (h : Joined A u) (h' : Joined A v) : u = v := by
  obtain ⟨a, ha⟩ := List.exists_mem_of_ne_nil _ hA
  rcases h with h | ⟨n, s, m⟩
  · rcases h' with h' | ⟨n, -, -⟩
    · exact (h a ha).symm.trans (h' a ha)
    · exact absurd (fun a ha d hd => (h a ha).trans (h d hd).symm) n
  · rcases h' with h' | ⟨-, s', m'⟩
    · exact absurd (fun a ha b hb => (h' a ha).trans (h' b hb).symm) n
    · exact incr_ext s s' fun x => (m x).trans (m' x).symm

end join

/-! ## which columns decide about the rows of the answer -/

/-- the four columns -/
inductive PCol where
  | high | low | close | volume
deriving DecidableEq

def PCol.get {α : Type} (h l c v : α) : PCol → α
  | .high => h
  | .low => l
  | .close => c
  | .volume => v

/-- The columns whose labels the answer carries. -/
def Ind.rowCols {F : Type} : Ind F → List PCol
  | .pvo .. | .pvoSignal .. | .pvoHist .. => [.volume]
  | .aroonUp _ | .dcHband .. => [.high]
  | .aroonDown _ | .dcLband .. => [.low]
  | .ao .. | .aroonInd _ | .massIndex .. | .ichimokuConv _ | .ichimokuBase _ | .ichimokuA .. | .ichimokuB .. | .dcMband .. => [.high, .low]
  | .uo .. | .stoch _ | .stochSignal .. | .williamsR _ | .cci .. | .vortexPos _ | .vortexNeg _ | .vortexDiff _ | .atr _ | .dcWband .. | .dcPband .. =>
      [.high, .low, .close]
  | .kcMband _ _ o _ => if o then [.high, .low, .close] else [.close]
  | .kcHband .. | .kcLband .. | .kcWband .. | .kcPband .. => [.high, .low, .close]
  | .adi | .cmf _ | .mfi _ | .vwap _ => [.high, .low, .close, .volume]
  | .fi _ | .vpt _ => [.close, .volume]
  | .eom | .smaEom _ => [.high, .low, .volume]
  | _ => [.close]

set_option linter.unusedSectionVars false

section labels
variable {L F : Type} [LinearOrder L] [Flt F]

/-- a join of non-empty indexes -/
structure JoinedN (A : List (List L)) (u : List L) : Prop where
  joined : Joined A u
  some : A ≠ []
  full : ∀ a ∈ A, a ≠ []

theorem JoinedN.join {A B : List (List L)} {x y : List L} (hx : JoinedN A x) (hy : JoinedN B y) : JoinedN (A ++ B) (joinIdx x y) :=
  ⟨hx.joined.join hy.joined hx.some hy.some hx.full hy.full, by simp [hx.some],
    fun a ha => (List.mem_append.1 ha).elim (hx.full a) (hy.full a)⟩

theorem JoinedN.congr {A B : List (List L)} {u : List L} (h : JoinedN A u) (e : ∀ a, a ∈ A ↔ a ∈ B) : JoinedN B u :=
  ⟨h.joined.congr e, by
    obtain ⟨a, ha⟩ := List.exists_mem_of_ne_nil _ h.some
    exact List.ne_nil_of_mem ((e a).1 ha), fun a ha => h.full a ((e a).2 ha)⟩

theorem joinedN_one {a : List L} (h : a ≠ []) : JoinedN [a] a := ⟨joined_one a, by simp, by simpa using h⟩

theorem Lab.bin_idx (f : F → F → F) (a b : Lab L F) : (Lab.bin f a b).idx = joinIdx a.idx b.idx := by
  unfold Lab.bin
  split_ifs with e
  · exact (if_pos e).symm
  · rfl

theorem Lab.tri_idx (f : F → F → F → F) (a b c : Lab L F) : (Lab.tri f a b c).idx = joinIdx (joinIdx a.idx b.idx) c.idx := by
  unfold Lab.tri
  split_ifs with e
  · rw [show joinIdx a.idx b.idx = a.idx from if_pos e.1]; exact (if_pos e.2).symm
  · rfl

variable {A B C : List (List L)} {a b c : Lab L F}

theorem JoinedN.bin (f : F → F → F) (ha : JoinedN A a.idx) (hb : JoinedN B b.idx) : JoinedN (A ++ B) (Lab.bin f a b).idx := by
  rw [Lab.bin_idx]; exact ha.join hb

theorem JoinedN.map (f : Series F → Series F) (ha : JoinedN A a.idx) : JoinedN A (a.map f).idx := ha

theorem JoinedN.tri (f : F → F → F → F) (ha : JoinedN A a.idx) (hb : JoinedN B b.idx) (hc : JoinedN C c.idx) :
    JoinedN (A ++ B ++ C) (Lab.tri f a b c).idx := by
  rw [Lab.tri_idx]; exact (ha.join hb).join hc

theorem JoinedN.trueRange (ha : JoinedN A a.idx) (hb : JoinedN B b.idx) (hc : JoinedN C c.idx) : JoinedN (A ++ B ++ C) (Lab.trueRange a b c).idx :=
  (JoinedN.tri _ (JoinedN.bin _ ha hb) (JoinedN.map _ (JoinedN.bin _ ha hc)) (JoinedN.map _ (JoinedN.bin _ hb hc))).congr fun x => by
    simp only [List.mem_append]; tauto

theorem JoinedN.typical (ha : JoinedN A a.idx) (hb : JoinedN B b.idx) (hc : JoinedN C c.idx) : JoinedN (A ++ B ++ C) (Lab.typical a b c).idx :=
  JoinedN.map _ (JoinedN.bin _ (JoinedN.bin _ ha hb) hc)

theorem JoinedN.clv (ha : JoinedN A a.idx) (hb : JoinedN B b.idx) (hc : JoinedN C c.idx) : JoinedN (A ++ B ++ C) (Lab.clv a b c).idx :=
  (JoinedN.map _ (JoinedN.bin _ (JoinedN.bin _ (JoinedN.bin _ hc hb) (JoinedN.bin _ ha hc)) (JoinedN.bin _ ha hb))).congr fun x => by
    simp only [List.mem_append]; tauto

theorem Lab.withIdx_idx {x : Series F} {s : Lab L F} (h : a.withIdx x = .ok s) : s.idx = a.idx := by
  unfold Lab.withIdx at h
  split_ifs at h
  exact Except.ok.inj h ▸ rfl

theorem Lab.atr_idx {w : Nat} {s : Lab L F} (h : Lab.atr a b c w = .ok s) : s.idx = (Lab.trueRange a b (c.map (shift · 1))).idx := by
  unfold Lab.atr at h
  by_cases e : c.len < max w 1
  · rw [if_pos e] at h; exact nomatch h
  · rw [if_neg e] at h; exact Lab.withIdx_idx h

theorem Lab.like_idx : (Lab.like a b).idx = b.idx := by
  unfold Lab.like; split_ifs with h
  · exact h
  · rfl

theorem Lab.lift_idx {f : Series F → Except PyErr (Series F)} {s : Lab L F} (h : a.lift f = .ok s) : s.idx = a.idx := by
  unfold Lab.lift at h
  generalize f a.val = x at h
  rcases x with x | x
  · exact nomatch h
  · exact Except.ok.inj h ▸ rfl

theorem Lab.mulArr_idx {x : Series F} {s : Lab L F} (h : a.mulArr x = .ok s) : s.idx = a.idx := by
  unfold Lab.mulArr at h
  split_ifs at h
  · exact Except.ok.inj h ▸ rfl
  · exact Except.ok.inj h ▸ rfl

theorem do_ok {α β : Type} {x : Except PyErr α} {f : α → β} {s : β} (h : (do return f (← x)) = Except.ok s) : ∃ y, x = .ok y ∧ f y = s := by
  rcases x with x | x
  · exact nomatch h
  · exact ⟨x, rfl, Except.ok.inj h⟩

theorem Lab.map_idx (f : Series F → Series F) : (a.map f).idx = a.idx := rfl
theorem Lab.fill_idx (f : Bool) (x : Fill F) : (a.fill f x).idx = a.idx := rfl
theorem Lab.fillOff_idx (f : Bool) (x : Fill F) (k : Int) : (a.fillOff f x k).idx = a.idx := rfl
theorem Lab.add_idx : (a.add b).idx = joinIdx a.idx b.idx := Lab.bin_idx _ _ _
theorem Lab.sub_idx : (a.sub b).idx = joinIdx a.idx b.idx := Lab.bin_idx _ _ _
theorem Lab.mul_idx : (a.mul b).idx = joinIdx a.idx b.idx := Lab.bin_idx _ _ _
theorem Lab.div_idx : (a.div b).idx = joinIdx a.idx b.idx := Lab.bin_idx _ _ _

/-- membership in lists of indexes -/
macro "jn" : tactic => `(tactic| (intro x; simp only [List.mem_append, List.mem_cons, List.not_mem_nil, or_false] <;> tauto))

/-- an index built by joins -/
macro "jj" : tactic => `(tactic| (
  simp only [Lab.map_idx, Lab.fill_idx, Lab.fillOff_idx, Lab.add_idx, Lab.sub_idx, Lab.mul_idx, Lab.div_idx, Lab.bin_idx, Lab.tri_idx, Lab.like_idx,
    Lab.trueRange, Lab.typical, Lab.clv]
  eapply JoinedN.congr
  · repeat' (first | assumption | eapply JoinedN.join)
  all_goals jn))

theorem LKeltner.rows {h l c : Lab L F} (jh : JoinedN [h.idx] h.idx) (jl : JoinedN [l.idx] l.idx) (jc : JoinedN [c.idx] c.idx)
    {w wa : Nat} {b o : Bool} {k : F} {x : LKeltner L F} (e : LKeltner.new h l c w wa b o k = .ok x) :
    x.close = c ∧ JoinedN (if o then [h.idx, l.idx, c.idx] else [c.idx]) x.tp.idx ∧
      JoinedN [h.idx, l.idx, c.idx] x.tpHigh.idx ∧ JoinedN [h.idx, l.idx, c.idx] x.tpLow.idx := by
  unfold LKeltner.new at e
  cases o
  · simp only [Bool.false_eq_true, if_false] at e ⊢
    generalize chkSpan w = q at e
    rcases q with q | q
    · exact nomatch e
    · rcases ha : Lab.atr h l c wa with a | a
      · rw [ha] at e; exact nomatch e
      · rw [ha] at e
        have ja : JoinedN [h.idx, l.idx, c.idx] a.idx := by
          rw [Lab.atr_idx ha]; exact (JoinedN.trueRange jh jl (JoinedN.map _ jc))
        have e := Except.ok.inj e
        subst e
        refine ⟨rfl, jc, ?_, ?_⟩
        · jj
        · jj
  · simp only [if_true] at e ⊢
    generalize chkRoll w (if b then 1 else w) = q at e
    rcases q with q | q
    · exact nomatch e
    · have e := Except.ok.inj e
      subst e
      exact ⟨rfl, JoinedN.map _ (JoinedN.typical jh jl jc), JoinedN.map _ (JoinedN.bin _ (JoinedN.bin _ (JoinedN.map _ jh) (JoinedN.map _ jl)) jc),
        JoinedN.map _ (JoinedN.bin _ (JoinedN.bin _ (JoinedN.map _ jh) (JoinedN.map _ jl)) jc)⟩

end labels

section main
variable {L F : Type} [LinearOrder L] [FltFn F]

set_option maxHeartbeats 1000000 in
/-- **The rows of the answer.** -/
theorem joined_labels (h l c v : Lab L F) (nh : h.idx ≠ []) (nl : l.idx ≠ []) (nc : c.idx ≠ []) (nv : v.idx ≠ []) (fillna : Bool) (ind : Ind F)
    {s : Lab L F} (e : ind.evalL fillna h l c v = .ok s) : Joined (ind.rowCols.map fun k => (k.get h l c v).idx) s.idx := by
  have jh := joinedN_one nh
  have jl := joinedN_one nl
  have jc := joinedN_one nc
  have jv := joinedN_one nv
  cases ind
  case uo w1 w2 w3 t1 t2 t3 =>
    have e := Except.ok.inj e; subst e
    refine JoinedN.joined ?_
    simp only [Lab.uo, Ind.rowCols, List.map, PCol.get]
    jj
  case stoch w =>
    have e := Except.ok.inj e; subst e
    refine JoinedN.joined ?_
    simp only [Lab.stochK, Ind.rowCols, List.map, PCol.get]
    jj
  case stochSignal w s =>
    have e := Except.ok.inj e; subst e
    refine JoinedN.joined ?_
    simp only [Lab.stochK, Ind.rowCols, List.map, PCol.get]
    jj
  case ao w1 w2 =>
    have e := Except.ok.inj e; subst e
    refine JoinedN.joined ?_
    simp only [Lab.ao, Ind.rowCols, List.map, PCol.get]
    jj
  case williamsR w =>
    have e := Except.ok.inj e; subst e
    refine JoinedN.joined ?_
    simp only [Lab.wr, Ind.rowCols, List.map, PCol.get]
    jj
  case aroonUp w =>
    simp only [Ind.evalL] at e
    split_ifs at e
    have e := Except.ok.inj e; subst e
    exact joined_one _
  case aroonDown w =>
    simp only [Ind.evalL] at e
    split_ifs at e
    have e := Except.ok.inj e; subst e
    exact joined_one _
  case aroonInd w =>
    simp only [Ind.evalL] at e
    split_ifs at e
    have e := Except.ok.inj e; subst e
    refine JoinedN.joined ?_
    simp only [Ind.rowCols, List.map, PCol.get]
    jj
  case massIndex f s =>
    simp only [Ind.evalL] at e
    generalize chkSpan f = q at e
    rcases q with q | q
    · exact nomatch e
    have e := Except.ok.inj e; subst e
    refine JoinedN.joined ?_
    simp only [Lab.mass, Ind.rowCols, List.map, PCol.get]
    jj
  case ichimokuConv w =>
    have e := Except.ok.inj e; subst e
    refine JoinedN.joined ?_
    simp only [Lab.mid, Ind.rowCols, List.map, PCol.get]
    jj
  case ichimokuBase w =>
    have e := Except.ok.inj e; subst e
    refine JoinedN.joined ?_
    simp only [Lab.mid, Ind.rowCols, List.map, PCol.get]
    jj
  case ichimokuA w1 w2 b =>
    have e := Except.ok.inj e; subst e
    refine JoinedN.joined ?_
    simp only [Lab.mid, Ind.rowCols, List.map, PCol.get]
    jj
  case ichimokuB w2 w3 b =>
    have e := Except.ok.inj e; subst e
    refine JoinedN.joined ?_
    simp only [Lab.mid, Ind.rowCols, List.map, PCol.get]
    jj
  case cci w k =>
    have e := Except.ok.inj e; subst e
    refine JoinedN.joined ?_
    simp only [Lab.cci, Ind.rowCols, List.map, PCol.get]
    jj
  case adxPos w => obtain ⟨y, -, rfl⟩ := do_ok e; exact joined_one _
  case adxNeg w => obtain ⟨y, -, rfl⟩ := do_ok e; exact joined_one _
  case adx w =>
    simp only [Ind.evalL] at e
    generalize Lab.adx h l c w fillna = q at e
    rcases q with q | q
    · exact nomatch e
    obtain ⟨y, -, rfl⟩ := do_ok e; exact joined_one _
  case vortexPos w =>
    have e := Except.ok.inj e; subst e
    refine JoinedN.joined ?_
    simp only [Lab.vip, Lab.trn, Ind.rowCols, List.map, PCol.get]
    jj
  case vortexNeg w =>
    have e := Except.ok.inj e; subst e
    refine JoinedN.joined ?_
    simp only [Lab.vin, Lab.trn, Ind.rowCols, List.map, PCol.get]
    jj
  case vortexDiff w =>
    have e := Except.ok.inj e; subst e
    refine JoinedN.joined ?_
    simp only [Lab.vip, Lab.vin, Lab.trn, Ind.rowCols, List.map, PCol.get]
    jj
  case psar st mx => obtain ⟨y, -, rfl⟩ := do_ok e; exact joined_one _
  case psarUp st mx => obtain ⟨y, -, rfl⟩ := do_ok e; exact joined_one _
  case psarDown st mx => obtain ⟨y, -, rfl⟩ := do_ok e; exact joined_one _
  case psarUpInd st mx => obtain ⟨y, -, rfl⟩ := do_ok e; exact joined_one _
  case psarDownInd st mx => obtain ⟨y, -, rfl⟩ := do_ok e; exact joined_one _
  case atr w =>
    obtain ⟨y, hy, rfl⟩ := do_ok e
    refine JoinedN.joined ?_
    simp only [Lab.fill_idx, Lab.atr_idx hy, Ind.rowCols, List.map, PCol.get]
    jj
  case kcMband w wa o k =>
    obtain ⟨y, hy, rfl⟩ := do_ok e
    have hr := (LKeltner.rows jh jl jc hy).2.1.joined
    simp only [Ind.rowCols]
    cases o <;> exact hr
  case kcHband w wa o k => obtain ⟨y, hy, rfl⟩ := do_ok e; exact (LKeltner.rows jh jl jc hy).2.2.1.joined
  case kcLband w wa o k => obtain ⟨y, hy, rfl⟩ := do_ok e; exact (LKeltner.rows jh jl jc hy).2.2.2.joined
  case kcWband w wa o k =>
    obtain ⟨y, hy, rfl⟩ := do_ok e
    obtain ⟨r1, r2, r3, r4⟩ := LKeltner.rows jh jl jc hy
    refine JoinedN.joined ?_
    simp only [LKeltner.wband, Ind.rowCols, List.map, PCol.get]
    cases o
    · simp only [Bool.false_eq_true, if_false] at r2; jj
    · simp only [if_true] at r2; jj
  case kcPband w wa o k =>
    obtain ⟨y, hy, rfl⟩ := do_ok e
    obtain ⟨r1, r2, r3, r4⟩ := LKeltner.rows jh jl jc hy
    refine JoinedN.joined ?_
    simp only [LKeltner.pband, Ind.rowCols, List.map, PCol.get, r1]
    jj
  case kcHi w wa o k =>
    simp only [Ind.evalL] at e
    cases hy : LKeltner.new h l c w wa fillna o k with
    | error x => rw [hy] at e; exact nomatch e
    | ok y =>
      rw [hy] at e
      obtain ⟨z, hz, rfl⟩ := do_ok e
      obtain ⟨t, -, rfl⟩ := do_ok hz
      have := (LKeltner.rows jh jl jc hy).1
      show Joined [c.idx] y.close.idx
      rw [this]; exact joined_one _
  case kcLi w wa o k =>
    simp only [Ind.evalL] at e
    cases hy : LKeltner.new h l c w wa fillna o k with
    | error x => rw [hy] at e; exact nomatch e
    | ok y =>
      rw [hy] at e
      obtain ⟨z, hz, rfl⟩ := do_ok e
      obtain ⟨t, -, rfl⟩ := do_ok hz
      have := (LKeltner.rows jh jl jc hy).1
      show Joined [c.idx] y.close.idx
      rw [this]; exact joined_one _
  case dcHband w off =>
    obtain ⟨y, hy, rfl⟩ := do_ok e
    simp only [LDonchian.new] at hy
    generalize chkRoll w (if fillna then 1 else w) = q at hy
    rcases q with q | q
    · exact nomatch hy
    have hy := Except.ok.inj hy; subst hy
    refine JoinedN.joined ?_
    simp only [Ind.rowCols, List.map, PCol.get]
    jj
  case dcLband w off =>
    obtain ⟨y, hy, rfl⟩ := do_ok e
    simp only [LDonchian.new] at hy
    generalize chkRoll w (if fillna then 1 else w) = q at hy
    rcases q with q | q
    · exact nomatch hy
    have hy := Except.ok.inj hy; subst hy
    refine JoinedN.joined ?_
    simp only [Ind.rowCols, List.map, PCol.get]
    jj
  case dcMband w off =>
    obtain ⟨y, hy, rfl⟩ := do_ok e
    simp only [LDonchian.new] at hy
    generalize chkRoll w (if fillna then 1 else w) = q at hy
    rcases q with q | q
    · exact nomatch hy
    have hy := Except.ok.inj hy; subst hy
    refine JoinedN.joined ?_
    simp only [LDonchian.mband, Ind.rowCols, List.map, PCol.get]
    jj
  case dcWband w off =>
    obtain ⟨y, hy, rfl⟩ := do_ok e
    simp only [LDonchian.new] at hy
    generalize chkRoll w (if fillna then 1 else w) = q at hy
    rcases q with q | q
    · exact nomatch hy
    have hy := Except.ok.inj hy; subst hy
    refine JoinedN.joined ?_
    simp only [LDonchian.wband, Ind.rowCols, List.map, PCol.get]
    jj
  case dcPband w off =>
    obtain ⟨y, hy, rfl⟩ := do_ok e
    simp only [LDonchian.new] at hy
    generalize chkRoll w (if fillna then 1 else w) = q at hy
    rcases q with q | q
    · exact nomatch hy
    have hy := Except.ok.inj hy; subst hy
    refine JoinedN.joined ?_
    simp only [LDonchian.pband, Ind.rowCols, List.map, PCol.get]
    jj
  case adi =>
    have e := Except.ok.inj e; subst e
    refine JoinedN.joined ?_
    simp only [Lab.adi, Ind.rowCols, List.map, PCol.get]
    jj
  case obv =>
    obtain ⟨y, hy, rfl⟩ := do_ok e
    simp only [Lab.obv] at hy
    split_ifs at hy
    · have hy := Except.ok.inj hy; subst hy; exact joined_one _
    · have hy := Except.ok.inj hy; subst hy; exact joined_one _
  case cmf w =>
    have e := Except.ok.inj e; subst e
    refine JoinedN.joined ?_
    simp only [Lab.cmf, Ind.rowCols, List.map, PCol.get]
    jj
  case fi w =>
    simp only [Ind.evalL] at e
    generalize chkSpan w = q at e
    rcases q with q | q
    · exact nomatch e
    have e := Except.ok.inj e; subst e
    refine JoinedN.joined ?_
    simp only [Lab.fi, Ind.rowCols, List.map, PCol.get]
    jj
  case eom =>
    have e := Except.ok.inj e; subst e
    refine JoinedN.joined ?_
    simp only [Lab.eom, Ind.rowCols, List.map, PCol.get]
    jj
  case smaEom w =>
    have e := Except.ok.inj e; subst e
    refine JoinedN.joined ?_
    simp only [Lab.eom, Ind.rowCols, List.map, PCol.get]
    jj
  case vpt sm =>
    have e := Except.ok.inj e; subst e
    refine JoinedN.joined ?_
    simp only [Ind.rowCols, List.map, PCol.get]
    rcases sm with - | - | k <;> simp only [Lab.vpt] <;> jj
  case nvi =>
    obtain ⟨y, hy, rfl⟩ := do_ok e
    simp only [Lab.nvi] at hy
    split_ifs at hy
    have hy := Except.ok.inj hy; subst hy; exact joined_one _
  case mfi w =>
    obtain ⟨y, hy, rfl⟩ := do_ok e
    have hi : y.idx = ((Lab.typical h l c).mul v).idx := by
      unfold Lab.mfi at hy
      obtain ⟨z, hz, hy⟩ := do_ok hy
      rw [← hy]
      exact (Lab.mulArr_idx hz : z.idx = _)
    refine JoinedN.joined ?_
    simp only [Lab.fill_idx, hi, Ind.rowCols, List.map, PCol.get]
    jj
  case vwap w =>
    have e := Except.ok.inj e; subst e
    refine JoinedN.joined ?_
    simp only [Lab.vwap, Ind.rowCols, List.map, PCol.get]
    jj
  all_goals
    simp only [Ind.evalL] at e
    have hi := Lab.lift_idx e
    rw [hi]
    exact joined_one _

/-- two runs that both answer, on columns of the same labels, have the same rows, whatever the values and the setting of `fillna` -/
theorem rows_depend_on_labels (h l c v h' l' c' v' : Lab L F) (eh : h.idx = h'.idx) (el : l.idx = l'.idx) (ec : c.idx = c'.idx) (ev : v.idx = v'.idx)
    (nh : h.idx ≠ []) (nl : l.idx ≠ []) (nc : c.idx ≠ []) (nv : v.idx ≠ []) (fillna fillna' : Bool) (ind : Ind F) {s s' : Lab L F}
    (e : ind.evalL fillna h l c v = .ok s) (e' : ind.evalL fillna' h' l' c' v' = .ok s') : s.idx = s'.idx := by
  have a := joined_labels h l c v nh nl nc nv fillna ind e
  have b := joined_labels h' l' c' v' (eh ▸ nh) (el ▸ nl) (ec ▸ nc) (ev ▸ nv) fillna' ind e'
  have q : (ind.rowCols.map fun k => (k.get h' l' c' v').idx) = ind.rowCols.map fun k => (k.get h l c v).idx :=
    List.map_congr_left fun k _ => by cases k <;> simp [PCol.get, *]
  rw [q] at b
  refine a.unique ?_ b
  intro z
  have z : ind.rowCols = [] := List.map_eq_nil_iff.1 z
  cases ind <;> simp [Ind.rowCols] at z
  split_ifs at z

end main

/-! ## Witnesses -/

section witness
attribute [local instance] toyFn

/-- low is a row late: its labels are 2, 3, 4 -/
example : ((Ind.ao 1 2 : Ind (Val ℚ)).evalL false ⟨[1, 2, 3], highs oddBars⟩ ⟨[2, 3, 4], lows oddBars⟩ ⟨[1, 2, 3], closes oddBars⟩
    ⟨[1, 2, 3], volumes oddBars⟩).map (fun s => (s.idx, s.val)) = .ok ([1, 2, 3, 4], [nan, nan, .fin (1/2), nan]) := by decide +kernel

/-- the Donchian bands of the same columns have three rows each, the middle line has four -/
example : ((Ind.dcHband 1 0 : Ind (Val ℚ)).evalL false ⟨[1, 2, 3], highs oddBars⟩ ⟨[2, 3, 4], lows oddBars⟩ ⟨[1, 2, 3], closes oddBars⟩
      ⟨[1, 2, 3], volumes oddBars⟩).map (·.idx) = .ok [1, 2, 3]
    ∧ ((Ind.dcMband 1 0 : Ind (Val ℚ)).evalL false ⟨[1, 2, 3], highs oddBars⟩ ⟨[2, 3, 4], lows oddBars⟩ ⟨[1, 2, 3], closes oddBars⟩
      ⟨[1, 2, 3], volumes oddBars⟩).map (·.idx) = .ok [1, 2, 3, 4] := by decide +kernel

/-- newest row first in all columns: the order is kept; in the volumes only: the rows are sorted -/
example : ((Ind.adi : Ind (Val ℚ)).evalL false ⟨[3, 2, 1], highs oddBars⟩ ⟨[3, 2, 1], lows oddBars⟩ ⟨[3, 2, 1], closes oddBars⟩
      ⟨[3, 2, 1], volumes oddBars⟩).map (·.idx) = .ok [3, 2, 1]
    ∧ ((Ind.adi : Ind (Val ℚ)).evalL false ⟨[3, 2, 1], highs oddBars⟩ ⟨[3, 2, 1], lows oddBars⟩ ⟨[3, 2, 1], closes oddBars⟩
      ⟨[1, 2, 3], volumes oddBars⟩).map (·.idx) = .ok [1, 2, 3] := by decide +kernel

end witness
end TA
