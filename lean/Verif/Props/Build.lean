/-
  C01–C04: the builder.
-/
import Verif.Spec.Build
import Verif.Spec.Family
import Verif.Lemmas.Seq
import Verif.Lemmas.Real

namespace GLM
open Spec

section
variable {Y F : Type} [Scalar F]

/-! ### The state after a chain of calls -/

theorem getLast?_cons_or {α : Type} (a : α) (l : List α) (o : Option α) :
    ((a :: l).getLast?).or o = (l.getLast?).or (some a) := by
  rw [List.getLast?_cons]
  cases l.getLast? <;> rfl

/-- What the builder holds after a chain of calls. -/
theorem foldl_call (bd : Builder Y F) (calls : List (Call F)) :
    let r := calls.foldl Builder.call bd
    r.dataY = bd.dataY ∧ r.dataX = bd.dataX
      ∧ r.linearOffset = ((offsetsOf calls).getLast?).or bd.linearOffset
      ∧ r.freqWeights = (((freqsOf calls).map asFloats).getLast?).or bd.freqWeights
      ∧ r.varWeights = ((varsOf calls).getLast?).or bd.varWeights
      ∧ r.standardize = (standardizes calls && bd.standardize)
      ∧ r.useIntercept = (withIntercept calls && bd.useIntercept) := by
  induction calls generalizing bd with
  | nil => simp [offsetsOf, freqsOf, varsOf, standardizes, withIntercept]
  | cons c cs ih =>
    obtain ⟨h1, h2, h3, h4, h5, h6, h7⟩ := ih (bd.call c)
    rw [List.foldl_cons]
    refine ⟨h1.trans ?_, h2.trans ?_, h3.trans ?_, h4.trans ?_, h5.trans ?_, h6.trans ?_,
      h7.trans ?_⟩
    · cases c <;> rfl
    · cases c <;> rfl
    · cases c
      case linearOffset a => exact (getLast?_cons_or a (offsetsOf cs) _).symm
      all_goals rfl
    · cases c
      case freqWeights a =>
        exact (getLast?_cons_or (asFloats a) ((freqsOf cs).map asFloats) _).symm
      all_goals rfl
    · cases c
      case varWeights a => exact (getLast?_cons_or a (varsOf cs) _).symm
      all_goals rfl
    · cases c
      case noStandardize => simp [standardizes, Builder.call]
      all_goals rfl
    · cases c
      case noConstant => simp [withIntercept, Builder.call]
      all_goals rfl

/-- The number of times a setting was given, counting one for a value already held. -/
private def given (o : Option (Arr F)) (k : ℕ) : ℕ := k + if o.isSome then 1 else 0

/-- The builder records an error exactly if a setting is given twice. -/
theorem foldl_error (bd : Builder Y F) (calls : List (Call F)) :
    (∀ s, (calls.foldl Builder.call bd).error = some s → bd.error = some s ∨
        match s with
        | .offset => 2 ≤ given bd.linearOffset (offsetsOf calls).length
        | .freqs => 2 ≤ given bd.freqWeights (freqsOf calls).length
        | .vars => 2 ≤ given bd.varWeights (varsOf calls).length)
    ∧ ((calls.foldl Builder.call bd).error = none → bd.error = none
        ∧ (given bd.linearOffset (offsetsOf calls).length < 2 ∨ offsetsOf calls = [])
        ∧ (given bd.freqWeights (freqsOf calls).length < 2 ∨ freqsOf calls = [])
        ∧ (given bd.varWeights (varsOf calls).length < 2 ∨ varsOf calls = [])) := by
  induction calls generalizing bd with
  | nil =>
    simp only [List.foldl_nil]
    exact ⟨fun s h => .inl h, fun h => ⟨h, .inr rfl, .inr rfl, .inr rfl⟩⟩
  | cons c cs ih =>
    obtain ⟨h1, h2⟩ := ih (bd.call c)
    rw [List.foldl_cons]
    refine ⟨fun s h => ?_, fun h => ?_⟩
    · have := h1 s h
      cases c <;> cases s <;>
        simp only [Builder.call, offsetsOf, freqsOf, varsOf, List.filterMap_cons_none, given,
          Option.isSome_some, if_true] at this ⊢ <;>
        (try exact this) <;>
        (split_ifs at this ⊢ <;> simp_all)
    · obtain ⟨h3, h4, h5, h6⟩ := h2 h
      cases c <;>
        simp only [Builder.call, offsetsOf, freqsOf, varsOf, List.filterMap_cons_none, given,
          Option.isSome_some, if_true] at h3 h4 h5 h6 ⊢
      all_goals (split_ifs at h3 ⊢ <;> simp_all)

/-- The builder's verdict on repeated settings. -/
theorem error_iff (y : Arr Y) (x : Arr2 F) (calls : List (Call F)) :
    ((calls.foldl Builder.call (Builder.data y x)).error = none ↔ NoRepeat calls)
      ∧ ∀ s, (calls.foldl Builder.call (Builder.data y x)).error = some s → Repeated calls s := by
  obtain ⟨h1, h2⟩ := foldl_error (Builder.data y x) calls
  have h3 : ∀ s, (calls.foldl Builder.call (Builder.data y x)).error = some s →
      Repeated calls s := by
    intro s h
    rcases h1 s h with h | h
    · simp [Builder.data] at h
    · cases s <;> simpa [given, Builder.data, Repeated] using h
  refine ⟨⟨fun h s => ?_, fun h => ?_⟩, h3⟩
  · obtain ⟨-, h4, h5, h6⟩ := h2 h
    cases s <;> simp only [Repeated, given, Builder.data, Option.isSome_none] at h4 h5 h6 ⊢
    · rcases h4 with h | h
      · simpa using h
      · simp [h]
    · rcases h5 with h | h
      · simpa using h
      · simp [h]
    · rcases h6 with h | h
      · simpa using h
      · simp [h]
  · cases he : (calls.foldl Builder.call (Builder.data y x)).error with
    | none => rfl
    | some s => exact absurd (h3 s he) (h s)

/-- A list without repetition is determined by its last element. -/
private theorem toList_getLast? {α : Type} {l : List α} (h : ¬ 2 ≤ l.length) :
    l = l.getLast?.toList := by
  match l, h with
  | [], _ => rfl
  | [a], _ => rfl
  | _ :: _ :: _, h => simp at h

/-- `build` after a chain without repetition, in terms of what the chain says. -/
theorem buildModel_eq (conv : Y → Option F) (y : Arr Y) (x : Arr2 F) {calls : List (Call F)}
    (hc : NoRepeat calls) : buildModel conv y x calls =
      Builder.build conv
        { dataY := y, dataX := x, linearOffset := (offsetsOf calls).getLast?
          varWeights := (varsOf calls).getLast?
          freqWeights := ((freqsOf calls).map asFloats).getLast?
          standardize := standardizes calls, useIntercept := withIntercept calls, error := none } := by
  obtain ⟨h1, h2, h3, h4, h5, h6, h7⟩ := foldl_call (Builder.data y x) calls
  have h8 := (error_iff y x calls).1.mpr hc
  unfold buildModel
  generalize calls.foldl Builder.call (Builder.data y x) = r at *
  cases r
  simp only [Builder.data, Option.or_none, Bool.and_true] at h1 h2 h3 h4 h5 h6 h7 h8
  subst h1 h2 h3 h4 h5 h6 h7 h8
  rfl

omit [Scalar F] in
/-- Conversion of the responses: all of them, or the first that has no counterpart. -/
theorem collectY_cases {n : ℕ} (conv : Y → Option F) (y : Fin n → Y) :
    (∃ v, (∀ i, conv (y i) = some (v i)) ∧ collectY conv y = .ok v)
      ∨ ∃ i, (∀ j < i, (conv (y j)).isSome) ∧ conv (y i) = none
          ∧ collectY conv y = .err (.invalidY (y i)) := by
  by_cases h : ∃ i, conv (y i) = none
  · right
    obtain ⟨k, hk⟩ := h
    obtain ⟨i, hi, hmin⟩ := WellFounded.has_min (r := ((· < ·) : Fin n → Fin n → Prop))
      wellFounded_lt {i | conv (y i) = none} ⟨k, hk⟩
    have hlt : ∀ j < i, (conv (y j)).isSome := by
      intro j hj
      rw [Option.isSome_iff_ne_none]
      exact fun h0 => hmin j h0 hj
    have hi' : conv (y i) = none := hi
    refine ⟨i, hlt, hi', seqOutcome_fail (i := i) (fun j hj => ?_) ?_⟩
    · obtain ⟨v, hv⟩ := Option.isSome_iff_exists.mp (hlt j hj)
      exact ⟨v, by rw [hv]⟩
    · rw [hi']
  · left
    push Not at h
    have h' : ∀ i, ∃ v, conv (y i) = some v := fun i => Option.ne_none_iff_exists'.mp (h i)
    choose v hv using h'
    refine ⟨v, hv, seqOutcome_ok.mpr fun i => ?_⟩
    rw [hv]

/-- The five possible ends of `build()` after a chain without repetition. -/
theorem buildModel_cases (conv : Y → Option F) (y : Arr Y) (x : Arr2 F) {calls : List (Call F)}
    (hc : NoRepeat calls) :
    (y.len ≠ x.rows ∧ buildModel conv y x calls = .err .badShape)
    ∨ (y.len = x.rows ∧ (∃ a ∈ offsetsOf calls, a.len ≠ y.len)
        ∧ buildModel conv y x calls = .err .badOffset)
    ∨ (y.len = x.rows ∧ (∀ a ∈ offsetsOf calls, a.len = y.len) ∧ ∃ i,
        (∀ j < i, (conv (y.get j)).isSome) ∧ conv (y.get i) = none
        ∧ buildModel conv y x calls = .err (.invalidY (y.get i)))
    ∨ ∃ (h : y.len = x.rows) (off : Option (Vec F y.len)) (v : Vec F y.len),
        (offsetsOf calls = off.toList.map arr) ∧ (∀ i, conv (y.get i) = some (v i))
        ∧ buildModel conv y x calls =
          match RawData.finalize
            { y := v, x := fun i j => x.get (Fin.cast h i) j, linearOffset := off
              weights := (varsOf calls).getLast?, freqs := ((freqsOf calls).map asFloats).getLast? }
            (standardizes calls) (withIntercept calls) with
          | some m => .ok m
          | none => .panic := by
  rw [buildModel_eq conv y x hc]
  unfold Builder.build
  dsimp only
  by_cases h : y.len = x.rows
  swap
  · exact .inl ⟨h, by rw [dif_neg h]⟩
  refine .inr ?_
  rw [dif_pos h]
  have hl := toList_getLast? (hc .offset)
  generalize hoff : (offsetsOf calls).getLast? = o at hl
  cases o with
  | none =>
    rw [hl]
    rcases collectY_cases conv y.get with ⟨v, hv, hcv⟩ | ⟨i, h1, h2, h3⟩
    · right; right
      refine ⟨h, none, v, rfl, hv, ?_⟩
      simp only [fitLen, hcv, Outcome.bind]
      rfl
    · right; left
      refine ⟨h, by simp, i, h1, h2, ?_⟩
      simp only [fitLen, h3, Outcome.bind]
  | some a =>
    rw [hl]
    by_cases ha : y.len = a.len
    · rcases collectY_cases conv y.get with ⟨v, hv, hcv⟩ | ⟨i, h1, h2, h3⟩
      · right; right
        refine ⟨h, some fun i => a.get (Fin.cast ha i), v, ?_, hv, ?_⟩
        · obtain ⟨m, a⟩ := a
          dsimp only at ha
          subst ha
          rfl
        · simp only [fitLen, dif_pos ha, hcv, Outcome.bind]
          rfl
      · right; left
        refine ⟨h, by simp [ha], i, h1, h2, ?_⟩
        simp only [fitLen, dif_pos ha, h3, Outcome.bind]
    · left
      refine ⟨h, ⟨a, by simp, fun h' => ha h'.symm⟩, ?_⟩
      simp only [fitLen, dif_neg ha]

/-! ### C02 -/

/-- **C02**: `build()` returns `BuildError` exactly if `linear_offset`, `freq_weights` or
`var_weights` was called more than once, whatever the data; the setting it names was given more than
once.  For every arithmetic. -/
theorem C02_repeated (conv : Y → Option F) (y : Arr Y) (x : Arr2 F) (calls : List (Call F)) :
    ((∃ s, buildModel conv y x calls = .err (.buildError s)) ↔ ∃ s, Repeated calls s)
      ∧ ∀ s, buildModel conv y x calls = .err (.buildError s) → Repeated calls s := by
  obtain ⟨h1, h2⟩ := error_iff y x calls
  cases he : (calls.foldl Builder.call (Builder.data y x)).error with
  | some s =>
    have hb : buildModel conv y x calls = .err (.buildError s) := by
      unfold buildModel Builder.build; rw [he]
    refine ⟨⟨fun _ => ⟨s, h2 s he⟩, fun _ => ⟨s, hb⟩⟩, fun s' hs' => ?_⟩
    rw [hb] at hs'
    cases hs'
    exact h2 s he
  | none =>
    have hc := h1.mp he
    have hb : ∀ s, buildModel conv y x calls ≠ .err (.buildError s) := by
      intro s hs
      rcases buildModel_cases conv y x hc with ⟨-, h⟩ | ⟨-, -, h⟩ | ⟨-, -, i, -, -, h⟩
        | ⟨_, off, v, -, -, h⟩
      · rw [h] at hs; simp at hs
      · rw [h] at hs; simp at hs
      · rw [h] at hs; simp at hs
      · rw [h] at hs
        split at hs <;> simp at hs
    exact ⟨⟨fun ⟨s, h⟩ => absurd h (hb s), fun ⟨s, h⟩ => absurd h (hc s)⟩,
      fun s h => absurd h (hb s)⟩

/-! ### C03 -/

private theorem perm_eq {α : Type} {l l' : List α} (hp : l.Perm l') (h : ¬ 2 ≤ l.length) : l = l' := by
  match l, h with
  | [], _ => exact hp.nil_eq
  | [a], _ => exact (List.perm_singleton.mp hp.symm).symm
  | _ :: _ :: _, h => simp at h

/-- **C03**: the order of the builder calls does not matter. -/
theorem C03_order (conv : Y → Option F) (y : Arr Y) (x : Arr2 F) {calls calls' : List (Call F)}
    (hp : calls.Perm calls') (hc : NoRepeat calls) :
    buildModel conv y x calls = buildModel conv y x calls' := by
  have h1 := perm_eq (hp.filterMap _) (hc .offset)
  have h2 := perm_eq (hp.filterMap _) (hc .freqs)
  have h3 := perm_eq (hp.filterMap _) (hc .vars)
  have hc' : NoRepeat calls' := by
    intro s
    have := hc s
    cases s
    · exact fun h => this (by unfold Repeated offsetsOf; rw [h1]; exact h)
    · exact fun h => this (by unfold Repeated freqsOf; rw [h2]; exact h)
    · exact fun h => this (by unfold Repeated varsOf; rw [h3]; exact h)
  have h4 : standardizes calls = standardizes calls' := hp.all_eq
  have h5 : withIntercept calls = withIntercept calls' := hp.all_eq
  have e1 : offsetsOf calls = offsetsOf calls' := h1
  have e2 : freqsOf calls = freqsOf calls' := h2
  have e3 : varsOf calls = varsOf calls' := h3
  rw [buildModel_eq conv y x hc, buildModel_eq conv y x hc', e1, e2, e3, h4, h5]

/-- **C03**: with a repeated setting every order fails. -/
theorem C03_repeated (conv : Y → Option F) (y : Arr Y) (x : Arr2 F) {calls calls' : List (Call F)}
    (hp : calls.Perm calls') (hr : ∃ s, Repeated calls s) :
    ∃ s, buildModel conv y x calls' = .err (.buildError s) := by
  refine (C02_repeated conv y x calls').1.mpr ?_
  obtain ⟨s, hs⟩ := hr
  refine ⟨s, ?_⟩
  cases s
  · exact le_of_le_of_eq hs (hp.filterMap _).length_eq
  · exact le_of_le_of_eq hs (hp.filterMap _).length_eq
  · exact le_of_le_of_eq hs (hp.filterMap _).length_eq

/-! ### C01 -/

/-- **C01**: without repeated settings, `build()` reports inconsistent shapes (`BadInput`) exactly
if the response and the features differ in length, or else an offset of another length was given. -/
theorem C01_bad_input (conv : Y → Option F) (y : Arr Y) (x : Arr2 F) {calls : List (Call F)}
    (hc : NoRepeat calls) :
    (buildModel conv y x calls = .err .badShape ↔ y.len ≠ x.rows)
      ∧ (buildModel conv y x calls = .err .badOffset ↔
          y.len = x.rows ∧ ∃ a ∈ offsetsOf calls, a.len ≠ y.len) := by
  rcases buildModel_cases conv y x hc with ⟨h1, h⟩ | ⟨h1, h2, h⟩ | ⟨h1, h2, i, -, -, h⟩
    | ⟨h1, off, v, h2, -, h⟩
  · rw [h]; simp [h1]
  · rw [h]; simpa [h1] using h2
  · rw [h]
    refine ⟨by simpa using h1, ?_⟩
    simp only [Outcome.err.injEq, reduceCtorEq, false_iff]
    rintro ⟨-, a, ha, hl⟩
    exact hl (h2 a ha)
  · rw [h]
    constructor
    · split <;> simpa using h1
    · rw [h2]
      cases off <;> split <;> simp [arr]

/-- What `finalize_design_matrix` keeps. -/
theorem rawFinalize_ok {n p : ℕ} {d : RawData F n p} {std hi : Bool} {m : Model F}
    (h : d.finalize std hi = some m) :
    m.n = n ∧ m.p = p ∧ m.b = hi ∧ arr m.y = arr d.y
      ∧ m.linearOffset.toList.map arr = d.linearOffset.toList.map arr
      ∧ m.weights = d.weights ∧ m.freqs = d.freqs ∧ m.standardizer.isSome = std := by
  unfold RawData.finalize at h
  cases std
  · simp only [Bool.false_eq_true, if_false, Option.some.injEq] at h
    subst h
    simp
  · simp only [if_true, Option.map_eq_some_iff] at h
    obtain ⟨s, -, rfl⟩ := h
    simp

/-- **C01**: a model that was built has as many responses and offsets as rows of features, no
setting was repeated, and it holds exactly what the user gave.  The lengths of the weights do not
occur: they are not checked. -/
theorem C01_consistent {conv : Y → Option F} {y : Arr Y} {x : Arr2 F} {calls : List (Call F)}
    {m : Model F} (h : buildModel conv y x calls = .ok m) :
    NoRepeat calls ∧ y.len = x.rows ∧ (∀ a ∈ offsetsOf calls, a.len = y.len)
      ∧ m.n = y.len ∧ m.p = x.cols ∧ m.b = withIntercept calls
      ∧ m.standardizer.isSome = standardizes calls
      ∧ m.linearOffset.toList.map arr = offsetsOf calls
      ∧ m.weights.toList = varsOf calls ∧ m.freqs.toList = (freqsOf calls).map asFloats
      ∧ ∃ v : Vec F y.len, (∀ i, conv (y.get i) = some (v i)) ∧ arr m.y = arr v := by
  have hc : NoRepeat calls := by
    intro s hs
    obtain ⟨s', hs'⟩ := (C02_repeated conv y x calls).1.mpr ⟨s, hs⟩
    rw [h] at hs'
    cases hs'
  rcases buildModel_cases conv y x hc with ⟨h1, h'⟩ | ⟨h1, h2, h'⟩ | ⟨h1, h2, i, -, -, h'⟩
    | ⟨h1, off, v, h2, hv, h'⟩
  · rw [h] at h'; simp at h'
  · rw [h] at h'; simp at h'
  · rw [h] at h'; simp at h'
  · rw [h] at h'
    split at h'
    · rename_i m' hm'
      cases h'
      obtain ⟨e1, e2, e3, e4, e5, e6, e7, e8⟩ := rawFinalize_ok hm'
      have hl : ∀ a ∈ offsetsOf calls, a.len = y.len := by
        rw [h2]
        cases off <;> simp [arr]
      refine ⟨hc, h1, hl, e1, e2, e3, e8, e5.trans h2.symm, ?_, ?_, v, hv, e4⟩
      · rw [e6]; exact (toList_getLast? (hc .vars)).symm
      · rw [e7]
        refine (toList_getLast? ?_).symm
        rw [List.length_map]
        exact hc .freqs
    · simp at h'

/-- **C01**, what is not checked: without standardization, weights of every length are accepted. -/
theorem C01_unchecked_weights {conv : Y → Option F} {y : Arr Y} {x : Arr2 F} {calls : List (Call F)}
    (hc : NoRepeat calls) (hx : y.len = x.rows) (ho : ∀ a ∈ offsetsOf calls, a.len = y.len)
    (hy : ∀ i, (conv (y.get i)).isSome) (hs : standardizes calls = false) :
    ∃ m, buildModel conv y x calls = .ok m := by
  rcases buildModel_cases conv y x hc with ⟨h1, -⟩ | ⟨-, ⟨a, ha, h2⟩, -⟩ | ⟨-, -, i, -, h2, -⟩
    | ⟨h1, off, v, h2, hv, h'⟩
  · exact absurd hx h1
  · exact absurd (ho a ha) h2
  · have := hy i
    rw [h2] at this
    cases this
  · rw [h', hs]
    exact ⟨_, rfl⟩

theorem mul_len {a b c : Arr F} (h : a.mul b = some c) :
    (a.len = b.len ∧ c.len = b.len) ∨ (a.len = 1 ∧ c.len = b.len) ∨ (b.len = 1 ∧ c.len = a.len) := by
  unfold Arr.mul at h
  split_ifs at h with h1 h2 h3 <;> cases h <;> simp_all

/-- **C01**: with standardization, weights are only accepted if they have the length of the response
or length one (`build()` panics otherwise, when there are at least two observations). -/
theorem C01_weight_lengths {conv : Y → Option F} {y : Arr Y} {x : Arr2 F} {calls : List (Call F)}
    {m : Model F} (h : buildModel conv y x calls = .ok m) (hs : standardizes calls = true)
    (hn : y.len ≠ 1) :
    (∀ a ∈ varsOf calls, a.len = y.len ∨ a.len = 1)
      ∧ ∀ a ∈ freqsOf calls, a.len = y.len ∨ a.len = 1 := by
  have hc := (C01_consistent h).1
  rcases buildModel_cases conv y x hc with ⟨h1, h'⟩ | ⟨h1, h2, h'⟩ | ⟨h1, h2, i, -, -, h'⟩
    | ⟨h1, off, v, h2, hv, h'⟩
  · rw [h] at h'; simp at h'
  · rw [h] at h'; simp at h'
  · rw [h] at h'; simp at h'
  · rw [h, hs] at h'
    unfold RawData.finalize at h'
    simp only [if_true] at h'
    split at h'
    · rename_i m' hm'
      rw [Option.map_eq_some_iff] at hm'
      obtain ⟨s, hst, -⟩ := hm'
      unfold RawData.standardizer at hst
      rw [Option.bind_eq_some_iff] at hst
      obtain ⟨wv, hwv, hst⟩ := hst
      rw [Option.bind_eq_some_iff] at hst
      obtain ⟨w, hw, -⟩ := hst
      have hvl : (∀ a ∈ varsOf calls, a.len = y.len ∨ a.len = 1) ∧ wv.len = y.len := by
        have hv := toList_getLast? (hc .vars)
        unfold RawData.applyVarWeights at hwv
        dsimp only at hwv
        cases hg : (varsOf calls).getLast? with
        | none =>
          rw [hg] at hv hwv
          rw [hv]
          cases hwv
          simp
        | some a =>
          rw [hg] at hv hwv
          rw [hv]
          rcases mul_len hwv with ⟨h1, h2⟩ | ⟨h1, h2⟩ | ⟨h1, h2⟩
          · exact ⟨by simp [h1], h2⟩
          · exact ⟨by simp [h1], h2⟩
          · exact absurd h1 hn
      refine ⟨hvl.1, ?_⟩
      have hv := toList_getLast? (l := (freqsOf calls).map (asFloats (F := F)))
        (by rw [List.length_map]; exact hc .freqs)
      have key : ∀ a ∈ (freqsOf calls).map (asFloats (F := F)), a.len = y.len ∨ a.len = 1 := by
        unfold RawData.applyFreqWeights at hw
        dsimp only at hw
        cases hg : ((freqsOf calls).map (asFloats (F := F))).getLast? with
        | none => rw [hg] at hv; rw [hv]; simp
        | some a =>
          rw [hg] at hv hw
          rw [hv]
          rcases mul_len hw with ⟨h1, h2⟩ | ⟨h1, h2⟩ | ⟨h1, h2⟩
          · simp [h1, hvl.2]
          · simp [h1]
          · exact absurd (hvl.2.symm.trans h1) hn
      intro a ha
      exact key (asFloats a) (List.mem_map_of_mem ha)
    · cases h'

/-! ### Sized data -/

theorem mul_arr {n : ℕ} (v w : Vec F n) : (arr v).mul (arr w) = some (arr (vmul v w)) := by
  unfold Arr.mul arr
  rw [dif_pos rfl]
  rfl

/-- The data set as assembled by `build`, from data of known size. -/
def Spec.rawOf {n p : ℕ} (d : Dataset F n p false) : RawData F n p :=
  { y := d.y, x := d.x, linearOffset := d.linearOffset, weights := d.weights.map arr
    freqs := d.freqs.map arr }

variable {n p : ℕ}

theorem rawOf_applyFreq (d : Dataset F n p false) (v : Vec F n) :
    (rawOf d).applyFreqWeights (arr v) = some (arr (d.applyFreqWeights v)) := by
  unfold RawData.applyFreqWeights Dataset.applyFreqWeights rawOf
  cases d.freqs with
  | none => rfl
  | some f => exact mul_arr f v

theorem rawOf_applyVar (d : Dataset F n p false) (v : Vec F n) :
    (rawOf d).applyVarWeights (arr v) = some (arr (d.applyVarWeights v)) := by
  unfold RawData.applyVarWeights Dataset.applyVarWeights rawOf
  cases d.weights with
  | none => rfl
  | some f => exact mul_arr f v

theorem rawOf_nEff (d : Dataset F n p false) : (rawOf d).nEff = some d.nEff := by
  have h := rawOf_applyFreq d
  unfold RawData.nEff Dataset.nEff
  cases hw : d.weights with
  | none =>
    simp only [rawOf, hw, Option.map_none, RawData.nObs, Dataset.nObs]
    cases d.freqs <;> rfl
  | some w =>
    have hw' : (rawOf d).weights = some (arr w) := by simp [rawOf, hw]
    rw [hw']
    dsimp only
    rw [h, mul_arr, Option.bind_some, Option.bind_some, h]
    rfl

theorem rawOf_standardizer (d : Dataset F n p false) (hi : Bool) :
    (rawOf d).standardizer hi = Standardizer.fromDataset d hi := by
  have hone : (⟨n, vfill 1⟩ : Arr F) = arr (vfill 1) := rfl
  have hcol : ∀ v : Vec F n, (⟨n, v⟩ : Arr F) = arr v := fun _ => rfl
  unfold RawData.standardizer Standardizer.fromDataset
  simp only [hone, hcol, rawOf_applyVar, rawOf_applyFreq, rawOf_nEff, Option.bind_some, mul_arr,
    Option.isNone_some, Option.elim_some, Dataset.applyTotalWeights, if_false, Bool.false_eq_true]
  by_cases h0 : n = 0
  · simp only [h0, if_true, Option.bind_some]; rfl
  · simp only [h0, if_false, Option.bind_some]; rfl

theorem rawOf_finalize (d : Dataset F n p false) (std hi : Bool) :
    (rawOf d).finalize std hi = (d.finalize std hi).map modelOf := by
  unfold RawData.finalize Dataset.finalize
  rw [rawOf_standardizer]
  cases std
  · rfl
  · simp only [if_true]
    cases Standardizer.fromDataset d hi <;> rfl

/-- **C01**: for data of consistent size, `build()` is the construction the numerical theorems start
from: it produces exactly `raw.finalize`, or panics where that is undefined. -/
theorem C01_sized {conv : Y → Option F} {raw : Dataset F n p false} {y : Fin n → Y}
    (hy : ∀ i, conv (y i) = some (raw.y i)) {calls : List (Call F)}
    (ho : offsetsOf calls = raw.linearOffset.toList.map arr)
    (hf : (freqsOf calls).map asFloats = raw.freqs.toList.map arr)
    (hw : varsOf calls = raw.weights.toList.map arr) :
    buildModel conv (arr y) ⟨n, p, raw.x⟩ calls =
      match raw.finalize (standardizes calls) (withIntercept calls) with
      | some d => .ok (modelOf d)
      | none => .panic := by
  have short : ∀ {α : Type} (o : Option α), ¬ 2 ≤ o.toList.length := by
    intro α o; cases o <;> simp
  have hc : NoRepeat calls := by
    intro s
    cases s
    · simp only [Repeated, ho, List.length_map]; exact short _
    · have : (freqsOf calls).length = raw.freqs.toList.length := by
        rw [← List.length_map (f := asFloats (F := F)), hf, List.length_map]
      simp only [Repeated, this]; exact short _
    · simp only [Repeated, hw, List.length_map]; exact short _
  have last : ∀ {α : Type} (o : Option (Fin n → α)),
      (o.toList.map arr).getLast? = o.map arr := by
    intro α o; cases o <;> rfl
  have inj : ∀ {α : Type} {o o' : Option (Fin n → α)}, o.toList.map arr = o'.toList.map arr →
      o = o' := by
    intro α o o' h
    have := congrArg List.getLast? h
    rw [last, last] at this
    cases o <;> cases o' <;> simp_all [arr]
  rcases buildModel_cases conv (arr y) ⟨n, p, raw.x⟩ hc with ⟨h1, -⟩ | ⟨-, ⟨a, ha, h2⟩, -⟩
    | ⟨-, -, i, -, h2, -⟩ | ⟨h1, off, v, h2, hv, h'⟩
  · exact absurd rfl h1
  · rw [ho] at ha
    obtain ⟨v, -, rfl⟩ := List.mem_map.mp ha
    exact absurd rfl h2
  · have h3 : conv (y i) = none := h2
    rw [hy i] at h3
    cases h3
  · have hoff : off = raw.linearOffset := inj (h2.symm.trans ho)
    have hv' : v = raw.y := funext fun i => by
      have := (hy i).symm.trans (hv i)
      exact (Option.some.inj this).symm
    rw [h', hoff, hv', hf, hw, last, last]
    change (match (rawOf raw).finalize (standardizes calls) (withIntercept calls) with
      | some m => Outcome.ok m
      | none => Outcome.panic) = _
    rw [rawOf_finalize]
    cases raw.finalize (standardizes calls) (withIntercept calls) <;> rfl

omit [Scalar F] in
/-- The data set of a model of known size. -/
theorem modelOf_dataset {b : Bool} (d : Dataset F n p b) : (modelOf d).dataset = some d := by
  have h : ∀ o : Option (Vec F n), fitLen n (o.map arr) = some o := by
    rintro (_ | v)
    · rfl
    · exact dif_pos rfl
  unfold Model.dataset
  dsimp only [modelOf]
  rw [h, h]
  rfl

/-! ### C04 -/

/-- **C04**: with consistent shapes and no repeated setting, `build()` reports `InvalidY` exactly if
some response is not admitted, and names the first such response. -/
theorem C04_invalid {conv : Y → Option F} {y : Arr Y} {x : Arr2 F} {calls : List (Call F)}
    (hc : NoRepeat calls) (hx : y.len = x.rows) (ho : ∀ a ∈ offsetsOf calls, a.len = y.len) (v : Y) :
    buildModel conv y x calls = .err (.invalidY v) ↔
      ∃ i, (∀ j < i, (conv (y.get j)).isSome) ∧ conv (y.get i) = none ∧ y.get i = v := by
  rcases buildModel_cases conv y x hc with ⟨h1, -⟩ | ⟨-, ⟨a, ha, h2⟩, -⟩
    | ⟨-, -, i, h1, h2, h'⟩ | ⟨h1, off, w, h2, hv, h'⟩
  · exact absurd hx h1
  · exact absurd (ho a ha) h2
  · rw [h']
    simp only [Outcome.err.injEq, BuildErr.invalidY.injEq]
    refine ⟨fun h => ⟨i, h1, h2, h⟩, ?_⟩
    rintro ⟨k, h3, h4, rfl⟩
    rcases lt_trichotomy i k with hlt | rfl | hlt
    · have := h3 i hlt; rw [h2] at this; cases this
    · rfl
    · have := h1 k hlt; rw [h4] at this; cases this
  · rw [h']
    constructor
    · intro h
      split at h <;> cases h
    · rintro ⟨i, -, h3, -⟩
      rw [hv] at h3
      cases h3

end

/-- **C04**: the admission test of each family, for every arithmetic: with NaN, `y <= 0` is false,
so exponential, gamma and inverse Gaussian models admit it while logistic models do not. -/
theorem C04_test {F G : Type} [Scalar F] [Scalar G] {cast : G → Option F}
    (hcast : ∀ y, (cast y).isSome) (fam : Family) (k : YKind G) (hk : fam.accepts k = true)
    (y : k.type) : (fam.intoFloat cast k y).isSome ↔ Admits fam k y := by
  cases fam <;> cases k <;> simp only [Family.accepts, Bool.false_eq_true] at hk
  all_goals simp only [Family.intoFloat, Admits, intoFloatUnit, intoFloatPos, intoFloatAny,
    intoFloatBool, Option.isSome_some]
  · simp [hcast]
  · by_cases h0 : Scalar.le 0 y = true <;> by_cases h1 : Scalar.le y 1 = true <;>
      simp [h0, h1, hcast]
  · by_cases h0 : Scalar.le 0 y = true <;> by_cases h1 : Scalar.le y 1 = true <;>
      simp [h0, h1, hcast]
  all_goals by_cases h0 : Scalar.le y 0 = true <;> simp [h0, hcast]

theorem intoFloatUnit_real (y : ℝ) : intoFloatUnit (F := ℝ) some y
    = if 0 ≤ y ∧ y ≤ 1 then some y else none := by
  unfold intoFloatUnit
  by_cases h0 : (0 : ℝ) ≤ y <;> by_cases h1 : y ≤ (1 : ℝ) <;>
    simp [Scalar.le, h0, h1]

theorem intoFloatPos_real (y : ℝ) : intoFloatPos (F := ℝ) some y
    = if 0 < y then some y else none := by
  unfold intoFloatPos
  by_cases h0 : (0 : ℝ) < y
  · simp [h0]
  · simp [h0, not_lt.mp h0]

/-- **C04**, exact arithmetic: a float response is admitted exactly if it lies where the responses of
the family live, and it is kept as it is. -/
theorem C04_float (fam : Family) (hk : fam.accepts (G := ℝ) .float = true) (y v : ℝ) :
    fam.intoFloat (F := ℝ) some .float y = some v ↔ y ∈ yDom fam ∧ v = y := by
  cases fam <;> simp only [Family.accepts, Bool.false_eq_true] at hk
  all_goals simp only [Family.intoFloat, intoFloatUnit_real, intoFloatPos_real, intoFloatAny, yDom,
    Set.mem_univ, true_and, Set.mem_Icc, Set.mem_Ioi, Option.some.injEq, Option.ite_none_right_eq_some,
    eq_comm]

/-- **C04**, exact arithmetic: Boolean responses become zero and one, counts are kept.  Both are
admitted without a test. -/
theorem C04_discrete (fam : Family) :
    (∀ y : Bool, fam.intoFloat (F := ℝ) (G := ℝ) some .bool y = some (if y then 1 else 0))
      ∧ ∀ y : ℕ, fam.intoFloat (F := ℝ) (G := ℝ) some .nat y = some (y : ℝ) := by
  constructor <;> intro y <;> cases fam <;> rfl

/-- **C04**: the responses of a model that was built lie where the responses of the family live;
for Binomial they are counts, which are not compared with the number of trials. -/
theorem C04_domain (fam : Family) (k : YKind ℝ) (hk : fam.accepts k = true) {y : Arr k.type}
    {x : Arr2 ℝ} {calls : List (Call ℝ)} {m : Model ℝ}
    (h : buildModel (fam.intoFloat (F := ℝ) some k) y x calls = .ok m) (i : Fin m.n) :
    m.y i ∈ yDom fam ∨ ∃ (N c : ℕ), fam = .binomial N ∧ m.y i = c := by
  obtain ⟨-, -, -, -, -, -, -, -, -, -, v, hv, hm⟩ := C01_consistent h
  have key : ∀ j, v j ∈ yDom fam ∨ ∃ (N c : ℕ), fam = .binomial N ∧ v j = c := by
    intro j
    have hj := hv j
    cases k with
    | float =>
      obtain ⟨h1, h2⟩ := (C04_float fam hk _ _).mp hj
      rw [h2]
      exact .inl h1
    | bool =>
      have := (C04_discrete fam).1 (y.get j)
      rw [this] at hj
      left
      cases fam <;> simp only [Family.accepts, Bool.false_eq_true] at hk
      all_goals
        rw [← Option.some.inj hj]
        simp only [yDom]
        split_ifs <;> simp
    | nat =>
      have := (C04_discrete fam).2 (y.get j)
      rw [this] at hj
      have hj' := Option.some.inj hj
      cases fam <;> simp only [Family.accepts, Bool.false_eq_true] at hk
      · left
        rw [← hj']
        simp [yDom]
      · exact .inr ⟨_, _, rfl, hj'.symm⟩
  have hn : ∀ {n n' : ℕ} {u : Vec ℝ n} {w : Vec ℝ n'}, arr u = arr w → ∀ P : ℝ → Prop,
      (∀ j, P (w j)) → ∀ i, P (u i) := by
    intro n n' u w he P hP i
    obtain rfl : n = n' := congrArg Arr.len he
    obtain rfl : u = w := by
      unfold arr at he
      rw [Arr.mk.injEq] at he
      exact eq_of_heq he.2
    exact hP i
  exact hn hm (fun z => z ∈ yDom fam ∨ ∃ (N c : ℕ), fam = .binomial N ∧ z = c) key i

/-! ### Examples -/

/-- Three observations with all settings: the hypotheses of C01, C03 and C04 are met, and the model
is built. -/
example : ∃ (calls : List (Call ℝ)) (m : Model ℝ), NoRepeat calls ∧ calls.length = 4
    ∧ buildModel (Family.intoFloat (F := ℝ) some .gammaLog .float) (arr ![1, 2, 5])
        ⟨3, 1, ![![0], ![1], ![3]]⟩ calls = .ok m := by
  refine ⟨[.varWeights (arr ![1, 2, 1]), .noStandardize, .linearOffset (arr ![0, 1, 0]),
    .freqWeights (arr ![1, 1, 4])], ?_⟩
  have hc : NoRepeat [Call.varWeights (arr ![(1 : ℝ), 2, 1]), .noStandardize,
      .linearOffset (arr ![0, 1, 0]), .freqWeights (arr ![1, 1, 4])] := by
    intro s; cases s <;> simp [Repeated, offsetsOf, freqsOf, varsOf]
  obtain ⟨m, hm⟩ := C01_unchecked_weights (conv := Family.intoFloat (F := ℝ) some .gammaLog .float)
    (y := arr ![1, 2, 5]) (x := ⟨3, 1, ![![0], ![1], ![3]]⟩) hc rfl
    (by simp [offsetsOf, arr])
    (fun i => by
      rw [C04_test (fun _ => rfl) _ _ rfl]
      change Fin 3 at i
      fin_cases i <;> simp [Admits, arr, Scalar.le] <;> norm_num)
    rfl
  exact ⟨m, hc, rfl, hm⟩

/-- Weights of the wrong length are accepted without standardization: five weights for three
observations. -/
example : ∃ m : Model ℝ, buildModel (Family.intoFloat (F := ℝ) some .linear .float)
    (arr ![(1 : ℝ), 2, 5]) ⟨3, 1, ![![0], ![1], ![3]]⟩
    [.noStandardize, .varWeights (arr ![1, 1, 1, 1, 1])] = .ok m ∧ m.dataset.isNone := by
  refine ⟨_, rfl, rfl⟩

/-- A count above the number of trials is accepted by Binomial. -/
example (N : ℕ) : ∃ m : Model ℝ, ∃ i, buildModel (Family.intoFloat (F := ℝ) (G := ℝ) some (.binomial N) .nat)
    (arr ![N + 1]) ⟨1, 1, ![![0]]⟩ [.noStandardize] = .ok m ∧ (N : ℝ) < m.y i :=
  ⟨_, (0 : Fin 1), rfl, by
    change (N : ℝ) < ((N + 1 : ℕ) : ℝ)
    exact_mod_cast Nat.lt_succ_self N⟩

end GLM
