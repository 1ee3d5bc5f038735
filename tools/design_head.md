# Formal model of bukosabino/ta (Lean 4) — design and trusted base

The tables of sections 4 and 5 are written by `tools/design.py`; the text above them is `tools/design_head.md`.

## 1. What is modelled

| code | model | remarks |
|---|---|---|
| `ta/utils.py` | `Verif/Model/Utils.lean`, `Dropna.lean` | `_check_fillna`, `_true_range`, `_sma`, `_ema`, `_get_min_max`, `dropna` |
| `ta/momentum.py` | `Verif/Model/Momentum.lean` | all classes |
| `ta/trend.py` | `Verif/Model/Trend.lean`, `Psar.lean`, `Adx.lean` | all classes |
| `ta/volatility.py` | `Verif/Model/Volatility.lean` | all classes |
| `ta/volume.py` | `Verif/Model/Volume.lean` | all classes |
| `ta/others.py` | `Verif/Model/Others.lean` | all classes |
| module-level functions of the five files, Python's argument binding | `Verif/Model/Call.lean`, `Functions.lean` | signatures, defaults and delegated calls; `Functions.lean` is written by `tools/functions.py`, which parses (does not run) the source text |
| `ta/wrapper.py` | `Verif/Model/Wrapper.lean` | all `add_*` functions, as a program of column assignments over a data frame, with failure points |
| all 84 output methods as one type | `Verif/Model/Catalogue.lean` | `Ind`, `Ind.eval`: constructor followed by method call, as a function of the bars |
| the 43 classes as objects that live on after the constructor | `Verif/Model/Objects.lean` | `Obj`, `Obj.init` (the arrays a constructor keeps), `Ind.call` (what a method reads and whether it hands out the object's array), histories of calls and in-place writes (C90 only) |
| the 84 output methods on labelled columns | `Verif/Model/Labels.lean` | `Lab`, `Ind.evalL`: what pandas does with the row labels, columns with different labels |
| pandas/numpy primitives the code calls | `Verif/Base/Series.lean` | `rolling().sum/mean/min/max/std/apply`, `ewm().mean`, `shift`, `diff`, `cumsum`, `pct_change`, `where`, `ffill`, `bfill`, `fillna`, `dropna`, `np.roll`, `np.where`, `np.argmax`, `DataFrame.max/min(axis=1)` |

Modelling decisions:

* **Numbers.** The model is written once over an abstract arithmetic `Flt F` *without any law*
  (`Verif/Base/Num.lean`). Structural theorems (causality, shape, memory, wrapper, function calls) are proved for every `F`, so
  they hold for IEEE float64 with any rounding. A few need that NaN is absorbing (`NaNLaws F`, which float64 satisfies).
  Numeric theorems are proved for `Val K`: `nan`, `+inf`,
  `-inf` and exact finite values in an arbitrary linearly ordered field `K` (instances: ℚ, ℝ); where square roots or
  logarithms occur, for `Val ℝ`. C58 and C80 to C84 are about arithmetic in which the result of every operation is rounded
  (`Verif/Base/Round.lean`), with binary64 constructed as an instance.
* **Series.** A float64 Series is the list of its values. All series passed to one indicator share the
  same index (as they do when they are columns of one frame), so pandas alignment is positional (C92 proves this from the
  alignment rules). Row labels are modelled where the code depends on them: PSAR (`self._psar[i] = …`), `utils.dropna`, and in `Labels.lean`.
* **Rolling and ewm** turn infinities into NaN first, as pandas 1.3.5 does; a rolling aggregate is a function of the
  non-NaN values in its window.
* **Exceptions** are values (`Except PyErr`). Windows are natural numbers: `rolling` and `ewm` raise on negative
  ones, and the three classes that do not use them are modelled with integer windows in `Negative.lean` (C106); the Donchian offset is an integer.

## 2. Trusted base

* Lean's kernel, and the axioms `propext`, `Classical.choice`, `Quot.sound` only (section 5 lists them per theorem).
  No axioms of our own, no `sorry`, no `native_decide`, no `bv_decide`. Examples are computed by the kernel
  (`decide +kernel`).
* The reading of `/repo/ta/*.py` as the definitions in `Verif/Model` (each definition cites file and lines).
* The reading of the pandas 1.3.5 / numpy 1.21.5 primitives (the versions pinned in
  `requirements-core.txt`) as the definitions in `Verif/Base/Series.lean`.
* For C90: `pd.Series(s, name=…)` of a Series shares its data in pandas 1.3.5, `replace`/`ffill`/arithmetic give new data, and a column of a frame can be
  overwritten in place under an object that holds it.
* For C92 to C95: the alignment rules of pandas 1.3.5 at the head of `Verif/Model/Labels.lean` (arithmetic of two Series: outer join, sorted unless the
  indexes are equal; comparison of differently labelled Series raises; numpy arrays and `.iloc` go by position; `s *= t` keeps the index of `s`).
* The specifications the theorems are stated with: `Verif/Spec/Data.lean` (finite data, "defined from row p on with the
  values f", NaN-or), `Spec/Causal.lean` (no look-ahead, row for row), `Spec/Memory.lean` (finite memory),
  `Spec/Features.lean` (names of the wrapper's columns), and the textbook definitions beside the theorems (`emaRec`, `wsum`,
  `wmean`, `wmax`, `wmin`, `wstd`, `gain`, `loss`, `sarAt`, …).

Evidence for the reading of the code (not a proof): `tools/csvcheck.py` evaluates the model with float64 arithmetic on the inputs of the repository's
unit tests and compares it with the expected columns in `/repo/test/data`. All 66 target columns agree on the rows the unit tests compare, within the tolerance
of those tests.

Not modelled:

* Overflow, the sign of zero, dtypes other than float64 (except C105, and C109: on `float32` columns products, quotients and `cumsum` are carried out in
  single precision, `Verif/Base/RoundP.lean`; rolling and exponential windows convert to float64 first); rounding, except in C58, C80 to C84 and in the theorems
  that hold in any arithmetic. pandas computes rolling sums, means and variances online (adding the new value and subtracting the
  old one, with compensation); the model sums each window from left to right. C72 writes pandas' kernels out (`Verif/Base/Online.lean`) and
  proves that in exact arithmetic there is no difference, nor for max and min in rounded arithmetic, and that the kernels look at no later row in
  any arithmetic. Under rounding sums do differ (witness in C72), so C58, C66 and C80 to C84 speak of the model's order. C98 bounds the
  error of pandas' own running sums and means in double precision, C111 that of the variances. numpy sums in pairwise
  order; again the model sums from left to right. C114 writes numpy's order out (`Verif/Model/NumpySum.lean`, trusted reading of numpy 1.21.5's
  `pairwise_sum_DOUBLE`) and proves that in exact arithmetic it makes no difference to any output.
* Repeated row labels in columns whose labels differ (pandas then joins every pair of rows); labels that cannot be compared with one another.
  Differently labelled columns are the subject of C93 to C95 and excluded elsewhere.
  `ATR` slices with integers, which pandas takes as labels when the index is a Float64Index: modelled separately (C79), not in the other properties.
* `rolling(0)`: taken as NaN for min and max.
* Arguments of a type the code does not document (strings, …). Integer columns count as converted to float, except in C105, which models the three places where the code does arithmetic in the type of the column (KAMA's `out=` array, the negated volumes of OBV, the doubled volumes of EoM) after the rules of numpy 1.21.5: casting rule `same_kind`, arithmetic modulo `2^w`, cumulated sums of unsigned columns in uint64. Those rules are trusted, not derived.
* Warnings, memory and time.
* `utils.dropna` is modelled on tables whose columns are numeric or "other" (only null-ness of the other cells is kept).

## 3. Techniques

* **Causality** (C02–C08): pointwise lemma for each pandas primitive "row i only reads rows ≤ i", composed (`Lemmas/Take.lean`).
* **Memory** (C66): the same from the other end: relation `Tail` between a series and a suffix of it.
* **Fill** (C09–C12): `ffill` as a prefix function, induction over the series.
* **Formulas and warm-up** (C13–C15, C26–C44, C61–C64): a predicate `Def s n p f` ("series `s` has `n` rows, `nan` on the first `p`,
  then the finite values `f i`"), closed under every primitive; each indicator is then computed by composition
  and compared with a textbook formula.
* **Bounds** (C16–C25, C27, C33, C39): invariants of the recurrences / windows, on data with gaps.
* **Invariance** (C18, C59, C60, C67, C69): a relation between two series ("row by row `y = k x + c`", negation, complement)
  preserved by every primitive, hence by every indicator.
* **Linear filters** (C70, C71): a family of series with gaps in the same rows and a linear or order relation between the numbers of a row.
* **pandas' kernels** (C72): invariants of the accumulators (prefix sums, moments, queue of candidates).
* **Fading memory** (C73): two runs as functions of the data (`Fade`: bounded, and the difference vanishes uniformly), closed under sums, products,
  quotients with denominators away from 0, lags, window sums, and smoothing with weights bounded below (contraction).
* **Gaps** (C76, C77): the predicate `Heal` ("a number on every row from k rows after the last gap on"), closed under the primitives that recover;
  absorbing NaN states of the recurrences that do not.
* **Names** (C78): decoding of the name; the texts of the 84 outputs are compared pairwise, which is all of them.
* **Error bounds** (C80 to C84): `Lemmas/Error.lean` proves `|rd x - x| <= 2^-53 |x| + 2^-1075` for `binary64` and carries `Approx` (computed series near an exact one) through the operations; the smoothing contracts, so the error of a row does not depend on the number of rows before it.
* **Compensated sums** (C98): an invariant of pandas' accumulator (distance from the exact window sum, size of the two compensations) carried from row to row.
* **Reach and lag** (C96, C97): Samuelson's inequality; the lag of an average as a contraction, or as a sum over the steps in the window.
* **Comparison of two markets** (C99, C100): the first market is written as the second with one value moved; each formula is split into what the rows before contribute and the weight of the row in hand, and the quotient is shown monotone in that value.
* **Rounding** (C58): monotonicity and exactness of representable numbers are all that is used of the rounding.
* **Trends and standstill** (C85 to C87): closed forms of the recurrences on monotone or constant data; one table for all 84 outputs at a standstill.
* **Pipeline** (C89): `dropna_spec`, then C09 and C52 on what is left; the parabolic SAR apart.
* **Objects** (C90): for each class, what its methods answer from the arrays and the present columns (`Ind.late`); an invariant of histories keeps the arrays fixed.
* **Sensitivity** (C91): the relation `|x - y| <= d` between rows, through every primitive; Minkowski's inequality for the standard deviation.
* **Labels** (C92 to C95): equal labels make every labelled operation positional; the rows of a join are determined by the set of joined indexes. Putting a column in order (`Lab.ord`) commutes with arithmetic of columns (C94).
* **State machines** (C37, C45–C48): induction over the loop.
* **Wrapper** (C52–C56, C65): a program of column assignments interpreted over a frame; one induction over the program.
* **Python calls** (C68, C101): binding of arguments to parameters, for arbitrary signatures; C101 combines it with the values of the wrapper (C53).

Wrong programs: `seeded/LOG.jsonl` records edits of the model and the theorems that then fail. The
names in `failed` are found from the line numbers of the build errors. Up to entry `cf9` an error reported for a documented
declaration as a whole (a timeout, say) was put down to the declaration above it, so a list may name a neighbour besides or
instead of the theorem that failed. Only the first levels of failures are followed, so the lists are not complete either.

