import Verif.Spec.Attr
import Verif.Props.Bounded

/-!
# C77: attributes hold what was assigned last
-/

namespace PT
open Spec Attrs

/-- The entries of two states at one name are the same. -/
def SameAt (a : Str) (s t : Attrs) : Prop :=
  s.dict a = t.dict a ∧ s.params a = t.params a ∧ s.buffers a = t.buffers a ∧ s.props a = t.props a

theorem SameAt.refl (a : Str) (s : Attrs) : SameAt a s s := ⟨rfl, rfl, rfl, rfl⟩

theorem setKey_same {α : Type} (f : Str → α) (k : Str) (v : α) : setKey f k v k = v := if_pos rfl

theorem setKey_ne {α : Type} (f : Str → α) {k x : Str} (v : α) (h : x ≠ k) : setKey f k v x = f x := if_neg h

theorem registerParam_frame (s : Attrs) {a b : Str} (v : AVal) (h : a ≠ b) : SameAt a (s.registerParam b v).1 s := by
  unfold registerParam
  split
  · exact .refl _ _
  · exact ⟨rfl, setKey_ne _ _ h, rfl, rfl⟩

theorem registerBuffer_frame (s : Attrs) {a b : Str} (v : AVal) (h : a ≠ b) : SameAt a (s.registerBuffer b v).1 s := by
  unfold registerBuffer
  split
  · exact .refl _ _
  · exact ⟨rfl, rfl, setKey_ne _ _ h, rfl⟩

theorem torchSetOther_frame (s : Attrs) {a b : Str} (v : AVal) (t : Bool) (h : a ≠ b) :
    SameAt a (s.torchSetOther b v t).1 s := by
  unfold torchSetOther objectSet
  split
  · exact .refl _ _
  · split
    · split
      · exact ⟨rfl, rfl, setKey_ne _ _ h, rfl⟩
      · exact .refl _ _
    · split
      · exact .refl _ _
      · exact ⟨setKey_ne _ _ h, rfl, rfl, rfl⟩

theorem SameAt.trans {a : Str} {s t u : Attrs} (h : SameAt a s t) (h' : SameAt a t u) : SameAt a s u :=
  ⟨h.1.trans h'.1, h.2.1.trans h'.2.1, h.2.2.1.trans h'.2.2.1, h.2.2.2.trans h'.2.2.2⟩

theorem torchSet_frame (s : Attrs) {a b : Str} (v : AVal) (h : a ≠ b) : SameAt a (s.torchSet b v).1 s := by
  have key : SameAt a (registerParam { s with dict := setKey s.dict b none, buffers := setKey s.buffers b none } b v).1 s :=
    (registerParam_frame _ v h).trans ⟨setKey_ne _ _ h, rfl, setKey_ne _ _ h, rfl⟩
  cases v with
  | number x => exact torchSetOther_frame s _ _ h
  | tensor x => exact torchSetOther_frame s _ _ h
  | buffer x => exact torchSetOther_frame s _ _ h
  | param x => exact key
  | bounded w lo hi => exact key

theorem set_frame (s : Attrs) {a b : Str} (v : AVal) (h : a ≠ b) (hb : isBounded v → a ≠ '_' :: b) :
    SameAt a (s.set b v).1 s := by
  cases v with
  | number x => exact torchSet_frame s _ h
  | tensor x => exact torchSet_frame s _ h
  | param x => exact torchSet_frame s _ h
  | buffer x =>
    have h1 := registerBuffer_frame s (.buffer x) h
    simp only [Attrs.set]
    rcases hr : s.registerBuffer b (.buffer x) with ⟨s', _ | e⟩
    · rw [hr] at h1
      exact (torchSet_frame s' _ h).trans h1
    · rw [hr] at h1
      exact h1
  | bounded w lo hi =>
    have h1 := registerParam_frame s (.bounded w lo hi) (hb trivial)
    simp only [Attrs.set]
    rcases hr : s.registerParam ('_' :: b) (.bounded w lo hi) with ⟨s', _ | e⟩
    · rw [hr] at h1
      exact ⟨h1.1, h1.2.1, h1.2.2.1, (setKey_ne _ _ h).trans h1.2.2.2⟩
    · rw [hr] at h1
      exact h1

/-- What is read at a name that has never been bounded. -/
theorem read_plain {s : Attrs} {a : Str} (hp : s.props a = false) :
    s.read a = match s.dict a with
      | some v => .ok v.raw
      | none => s.fallback a := by
  unfold Attrs.read
  rw [hp]
  rfl

/-- At most one place holds the attribute, and it holds `v`. -/
structure Holds (s : Attrs) (a : Str) (v : Option AVal) : Prop where
  props : s.props a = false
  where_ : (s.dict a = v ∧ s.params a = none ∧ s.buffers a = none) ∨ (s.dict a = none ∧ s.params a = v ∧ s.buffers a = none) ∨
    (s.dict a = none ∧ s.params a = none ∧ s.buffers a = v)

theorem Holds.congr {s t : Attrs} {a : Str} {v : Option AVal} (h : Holds s a v) (hs : SameAt a t s) : Holds t a v := by
  refine ⟨hs.2.2.2.trans h.props, ?_⟩
  rw [hs.1, hs.2.1, hs.2.2.1]
  exact h.where_

theorem Holds.read {s : Attrs} {a : Str} {v : Option AVal} (h : Holds s a v) :
    s.read a = match v with
      | some v => .ok v.raw
      | none => .error .attributeError := by
  rw [read_plain h.props]
  unfold fallback
  rcases h.where_ with ⟨h1, h2, h3⟩ | ⟨h1, h2, h3⟩ | ⟨h1, h2, h3⟩ <;> rw [h1, h2, h3] <;> cases v <;> rfl

theorem Holds.has {s : Attrs} {a : Str} {v : Option AVal} (h : Holds s a v) : s.has a = v.isSome := by
  unfold Attrs.has
  rw [h.read]
  cases v <;> rfl

/-- An assignment of a value that is not bounded. -/
theorem Holds.set {s : Attrs} {a : Str} {u : Option AVal} (h : Holds s a u) (v : AVal) (hv : ¬isBounded v) :
    ((s.set a v).2 = none ∧ Holds (s.set a v).1 a (some v)) ∨ ((s.set a v).2 ≠ none ∧ Holds (s.set a v).1 a u) := by
  have other : ∀ (s : Attrs) (t : Bool), Holds s a u → ((s.torchSetOther a v t).2 = none ∧ Holds (s.torchSetOther a v t).1 a (some v)) ∨
      ((s.torchSetOther a v t).2 ≠ none ∧ Holds (s.torchSetOther a v t).1 a u) := by
    intro s t h
    unfold torchSetOther objectSet
    by_cases h1 : (s.params a).isSome = true
    · rw [if_pos h1]
      exact .inr ⟨by simp, h⟩
    · rw [if_neg h1]
      have hp : s.params a = none := by simpa using h1
      by_cases h2 : (s.buffers a).isSome = true
      · rw [if_pos h2]
        have hd : s.dict a = none := by
          rcases h.where_ with ⟨-, -, h3⟩ | ⟨h3, -, -⟩ | ⟨h3, -, -⟩
          · rw [h3] at h2; simp at h2
          · exact h3
          · exact h3
        cases t with
        | true =>
          rw [if_pos rfl]
          exact .inl ⟨rfl, h.props, .inr (.inr ⟨hd, hp, setKey_same _ _ _⟩)⟩
        | false =>
          rw [if_neg (by simp)]
          exact .inr ⟨by simp, h⟩
      · rw [if_neg h2, h.props]
        exact .inl ⟨rfl, h.props, .inl ⟨setKey_same _ _ _, hp, by simpa using h2⟩⟩
  cases v with
  | number x => exact other s false h
  | tensor x => exact other s true h
  | param x =>
    refine .inl ?_
    show (registerParam { s with dict := setKey s.dict a none, buffers := setKey s.buffers a none } a (.param x)).2 = none ∧ Holds
      (registerParam { s with dict := setKey s.dict a none, buffers := setKey s.buffers a none } a (.param x)).1 a (some (.param x))
    set s' : Attrs := { s with dict := setKey s.dict a none, buffers := setKey s.buffers a none } with hs'
    have h' : Holds s' a (s.params a) := ⟨h.props, .inr (.inl ⟨setKey_same _ _ _, rfl, setKey_same _ _ _⟩)⟩
    have hc : ¬((s'.has a && (s'.params a).isNone) = true) := by
      rw [h'.has]
      show ¬(((s.params a).isSome && (s.params a).isNone) = true)
      cases s.params a <;> simp
    unfold registerParam
    rw [if_neg hc]
    exact ⟨rfl, h.props, .inr (.inl ⟨setKey_same _ _ _, setKey_same _ _ _, setKey_same _ _ _⟩)⟩
  | buffer x =>
    simp only [Attrs.set]
    by_cases hc : (s.has a && (s.buffers a).isNone) = true
    · have hr : s.registerBuffer a (.buffer x) = (s, some .keyError) := by
        unfold registerBuffer
        rw [if_pos hc]
      rw [hr]
      exact .inr ⟨by simp, h⟩
    · have hr : s.registerBuffer a (.buffer x) = ({ s with buffers := setKey s.buffers a (some (.buffer x)) }, none) := by
        unfold registerBuffer
        rw [if_neg hc]
      rw [hr]
      rw [h.has, Bool.and_eq_true, not_and] at hc
      have hdp : s.dict a = none ∧ s.params a = none := by
        cases u with
        | none =>
          rcases h.where_ with ⟨h1, h2, -⟩ | ⟨h1, h2, -⟩ | ⟨h1, h2, -⟩
          · exact ⟨h1, h2⟩
          · exact ⟨h1, h2⟩
          · exact ⟨h1, h2⟩
        | some u =>
          have hb := hc rfl
          rcases h.where_ with ⟨-, -, h3⟩ | ⟨-, -, h3⟩ | ⟨h1, h2, -⟩
          · rw [h3] at hb; simp at hb
          · rw [h3] at hb; simp at hb
          · exact ⟨h1, h2⟩
      refine .inl ?_
      set s' : Attrs := { s with buffers := setKey s.buffers a (some (.buffer x)) } with hs'
      have hb' : s'.buffers a = some (.buffer x) := setKey_same _ _ _
      have hp' : s'.params a = none := hdp.2
      have e : s'.torchSet a (.buffer x) = ({ s' with buffers := setKey s'.buffers a (some (.buffer x)) }, none) := by
        show s'.torchSetOther a (.buffer x) true = _
        unfold torchSetOther
        rw [if_neg (by rw [hp']; simp), if_pos (by rw [hb']; rfl), if_pos rfl]
      simp only [e]
      exact ⟨trivial, h.props, .inr (.inr ⟨hdp.1, hdp.2, setKey_same _ _ _⟩)⟩
  | bounded w lo hi => exact absurd trivial hv

theorem seen_raw {v : AVal} (h : ¬isBounded v) : seen v = v.raw := by
  cases v with
  | bounded w lo hi => exact absurd trivial h
  | _ => rfl

theorem run_holds (a : Str) : ∀ (h : List (Str × AVal)) (s : Attrs) (u : Option AVal),
    (∀ q ∈ h, isBounded q.2 → q.1 ≠ a ∧ '_' :: q.1 ≠ a) → Holds s a u →
    Holds (s.run h).1 a ((lastSet a h (s.run h).2).or u)
  | [], s, u, _, hu => hu
  | (b, v) :: h, s, u, hh, hu => by
    simp only [Attrs.run, lastSet]
    by_cases hb : b = a
    · subst hb
      have hv : ¬isBounded v := fun hv => (hh _ List.mem_cons_self hv).1 rfl
      rcases hu.set v hv with ⟨h1, h2⟩ | ⟨h1, h2⟩
      · have := run_holds b h _ _ (fun q hq => hh q (List.mem_cons_of_mem _ hq)) h2
        cases hl : lastSet b h ((s.set b v).1.run h).2 with
        | some w => rw [hl] at this; exact this
        | none =>
          rw [hl] at this
          simp only [h1, and_self, if_true]
          exact this
      · have := run_holds b h _ _ (fun q hq => hh q (List.mem_cons_of_mem _ hq)) h2
        cases hl : lastSet b h ((s.set b v).1.run h).2 with
        | some w => rw [hl] at this; exact this
        | none =>
          rw [hl] at this
          rw [if_neg fun h' => h1 h'.2]
          exact this
    · have h2 := hu.congr (set_frame s v (fun h' => hb h'.symm) fun hv =>
        fun h' => (hh _ List.mem_cons_self hv).2 h'.symm)
      have := run_holds a h _ _ (fun q hq => hh q (List.mem_cons_of_mem _ hq)) h2
      cases hl : lastSet a h ((s.set b v).1.run h).2 with
      | some w => rw [hl] at this; exact this
      | none =>
        rw [hl] at this
        rw [if_neg fun h' => hb h'.1]
        exact this

/-- The statement of C77: after any history of assignments, each attribute holds the value of the last assignment to it
that raised nothing. -/
def C77 : Prop := ∀ (h : List (Str × AVal)) (a : Str) (v : AVal), lastSet a h (({} : Attrs).run h).2 = some v →
  (({} : Attrs).run h).1.read a = .ok (seen v)

theorem lastSet_mem {a : Str} : ∀ {h : List (Str × AVal)} {os : List (Option PyErr)} {v : AVal}, lastSet a h os = some v → (a, v) ∈ h
  | (b, u) :: h, o :: os, v, hl => by
    simp only [lastSet] at hl
    cases hr : lastSet a h os with
    | some w =>
      rw [hr] at hl
      simp only [Option.some.injEq] at hl
      subst hl
      exact List.mem_cons_of_mem _ (lastSet_mem hr)
    | none =>
      rw [hr] at hl
      simp only at hl
      by_cases hc : b = a ∧ o = none
      · rw [if_pos hc] at hl
        simp only [Option.some.injEq] at hl
        rw [hl, hc.1]
        exact List.mem_cons_self
      · rw [if_neg hc] at hl
        exact absurd hl (by simp)
  | [], _, _, hl => absurd hl (by simp [lastSet])
  | _ :: _, [], _, hl => absurd hl (by simp [lastSet])

/-- C77 for attributes that are never set to a bounded parameter (nor the weight of one, which bears the name with an
underscore in front). Missing: attributes that are at some time bounded, for which C77 is false. -/
theorem C77_last_partial (h : List (Str × AVal)) (a : Str) (hb : ∀ q ∈ h, isBounded q.2 → q.1 ≠ a ∧ '_' :: q.1 ≠ a) (v : AVal)
    (hl : lastSet a h (({} : Attrs).run h).2 = some v) : (({} : Attrs).run h).1.read a = .ok (seen v) := by
  have hv : ¬isBounded v := fun hv => (hb _ (lastSet_mem hl) hv).1 rfl
  have := run_holds a h {} none hb ⟨rfl, .inl ⟨rfl, rfl, rfl⟩⟩
  rw [hl] at this
  rw [this.read, seen_raw hv]
  rfl

/-- A bounded attribute. -/
structure Bound (s : Attrs) (a : Str) (w : EReal) (lo hi : ℝ) : Prop where
  props : s.props a = true
  weight : s.params ('_' :: a) = some (.bounded w lo hi)

theorem Bound.read {s : Attrs} {a : Str} {w : EReal} {lo hi : ℝ} (h : Bound s a w lo hi) :
    s.read a = .ok (boundedValue w lo hi : ℝ) := by
  unfold Attrs.read
  rw [h.props, h.weight]
  rfl

theorem set_props (s : Attrs) (a b : Str) (v : AVal) (h : s.props a = true) : (s.set b v).1.props a = true := by
  have h1 : ∀ (s : Attrs) (b : Str) (v : AVal), (s.registerParam b v).1.props = s.props := by
    intro s b v; unfold registerParam; split <;> rfl
  have h2 : ∀ (s : Attrs) (b : Str) (v : AVal), (s.registerBuffer b v).1.props = s.props := by
    intro s b v; unfold registerBuffer; split <;> rfl
  have h3 : ∀ (s : Attrs) (b : Str) (v : AVal), (s.torchSet b v).1.props = s.props := by
    intro s b v
    have h4 : ∀ t, (s.torchSetOther b v t).1.props = s.props := by
      intro t
      unfold torchSetOther objectSet
      split
      · rfl
      · split
        · split <;> rfl
        · split <;> rfl
    cases v with
    | number x => exact h4 _
    | tensor x => exact h4 _
    | buffer x => exact h4 _
    | param x => exact h1 _ _ _
    | bounded w lo hi => exact h1 _ _ _
  cases v with
  | number x => show (s.torchSet b _).1.props a = true; rw [h3]; exact h
  | tensor x => show (s.torchSet b _).1.props a = true; rw [h3]; exact h
  | param x => show (s.torchSet b _).1.props a = true; rw [h3]; exact h
  | buffer x =>
    simp only [Attrs.set]
    have e := h2 s b (.buffer x)
    rcases hr : s.registerBuffer b (.buffer x) with ⟨s', _ | e'⟩
    · rw [hr] at e
      simp only
      rw [h3, e]; exact h
    · rw [hr] at e
      simp only
      rw [e]; exact h
  | bounded w lo hi =>
    simp only [Attrs.set]
    have e := h1 s ('_' :: b) (.bounded w lo hi)
    rcases hr : s.registerParam ('_' :: b) (.bounded w lo hi) with ⟨s', _ | e'⟩
    · rw [hr] at e
      simp only
      unfold setKey
      split
      · rfl
      · rw [e]; exact h
    · rw [hr] at e
      simp only
      rw [e]; exact h

theorem Bound.run {a : Str} {w : EReal} {lo hi : ℝ} : ∀ (h : List (Str × AVal)) (s : Attrs), Bound s a w lo hi →
    (∀ q ∈ h, q.1 ≠ '_' :: a ∧ (isBounded q.2 → q.1 ≠ a)) → Bound (s.run h).1 a w lo hi
  | [], _, hs, _ => hs
  | (b, v) :: h, s, hs, hh => by
    obtain ⟨h1, h2⟩ := hh _ List.mem_cons_self
    refine Bound.run h _ ⟨set_props s a b v hs.props, ?_⟩ fun q hq => hh q (List.mem_cons_of_mem _ hq)
    rw [(set_frame s v (a := '_' :: a) (fun h' => h1 h'.symm) fun hv h' => h2 hv (List.cons.inj h').2.symm).2.1]
    exact hs.weight

/-- C77: once an attribute has been set to a bounded parameter it stays one for ever: whatever is assigned to it later,
reading it gives the bounded value (until another bounded parameter is assigned). -/
theorem C77_sticky (s : Attrs) (a : Str) (w : EReal) (lo hi : ℝ) (hs : (s.set a (.bounded w lo hi)).2 = none)
    (h : List (Str × AVal)) (hh : ∀ q ∈ h, q.1 ≠ '_' :: a ∧ (isBounded q.2 → q.1 ≠ a)) :
    ((s.set a (.bounded w lo hi)).1.run h).1.read a = .ok (boundedValue w lo hi : ℝ) := by
  refine (Bound.run h _ ?_ hh).read
  simp only [Attrs.set] at hs ⊢
  have e : (s.registerParam ('_' :: a) (.bounded w lo hi)).2 = none →
      (s.registerParam ('_' :: a) (.bounded w lo hi)).1.params ('_' :: a) = some (.bounded w lo hi) := by
    unfold registerParam
    split
    · intro h; exact absurd h (by simp)
    · intro; exact setKey_same _ _ _
  rcases hr : s.registerParam ('_' :: a) (.bounded w lo hi) with ⟨s', _ | e'⟩
  · rw [hr] at e
    exact ⟨setKey_same _ _ _, e rfl⟩
  · rw [hr] at hs
    exact absurd hs (by simp)

/-- C77: nothing but a bounded parameter can be assigned to an attribute which was bounded from the beginning. -/
theorem C77_rejects (s : Attrs) (a : Str) (w : EReal) (lo hi : ℝ) (h : Bound s a w lo hi) (hp : s.params a = none)
    (hb : s.buffers a = none) (x : ℝ) :
    (s.set a (.number x)).2 = some .attributeError ∧ (s.set a (.tensor x)).2 = some .attributeError ∧
      (s.set a (.param x)).2 = some .keyError ∧ (s.set a (.buffer x)).2 = some .keyError := by
  have hhas : ∀ t : Attrs, Bound t a w lo hi → t.has a = true := by
    intro t ht
    unfold Attrs.has
    rw [ht.read]
  refine ⟨?_, ?_, ?_, ?_⟩
  · simp only [Attrs.set, torchSet, torchSetOther, objectSet, hp, hb, h.props]
    rfl
  · simp only [Attrs.set, torchSet, torchSetOther, objectSet, hp, hb, h.props]
    rfl
  · simp only [Attrs.set, torchSet]
    unfold registerParam
    rw [hhas { s with dict := setKey s.dict a none, buffers := setKey s.buffers a none } ⟨h.props, h.weight⟩]
    simp only [hp]
    rfl
  · simp only [Attrs.set]
    unfold registerBuffer
    rw [hhas s h, hb]
    rfl

/-- A fixed coupling which is made trainable, and fixed again. -/
noncomputable def exAttrs : List (Str × AVal) :=
  [(['k'], .buffer 0.3), (['k'], .bounded 0 0 1), (['k'], .buffer 0.7)]

theorem exAttrs_run : (({} : Attrs).run exAttrs).2 = [none, none, none] := by
  simp [exAttrs, Attrs.run, Attrs.set, registerBuffer, Attrs.has, Attrs.read, fallback, torchSet, torchSetOther, registerParam,
    setKey, objectSet]

/-- C77 is false: assigning a `Buffer` (or a `Parameter`) to an attribute that held one before it became bounded raises
nothing and has no effect. -/
theorem C77_violation : ¬C77 := by
  intro hC
  have h1 := hC exAttrs ['k'] (.buffer 0.7) (by rw [exAttrs_run]; simp [exAttrs, lastSet])
  have hs : (((({} : Attrs).set ['k'] (.buffer 0.3)).1.set ['k'] (.bounded 0 0 1))).2 = none := by
    have := exAttrs_run
    simp only [exAttrs, Attrs.run, List.cons.injEq] at this
    exact this.2.1
  have h2 := C77_sticky ((({} : Attrs).set ['k'] (.buffer 0.3)).1) ['k'] 0 0 1 hs [(['k'], .buffer 0.7)] (by
    intro q hq
    rw [List.mem_singleton] at hq
    subst hq
    exact ⟨by decide, fun h => absurd h (by simp [isBounded])⟩)
  have h3 := h1.symm.trans h2
  simp only [Except.ok.injEq, seen] at h3
  have h4 : (0.7 : ℝ) = boundedValue 0 0 1 := by exact_mod_cast h3
  have h5 : boundedValue 0 0 1 = 1 / 2 := by
    show ((1 : ℝ) - 0) * (1 / (1 + Real.exp (-0))) + 0 = 1 / 2
    norm_num
  rw [h5] at h4
  norm_num at h4

/-- A phase that is first fixed, then trainable; a wrong assignment in between raises and has no effect. -/
example : (({} : Attrs).run [(['p'], .buffer 0.3), (['k'], .bounded 0 0 1), (['p'], .number 2), (['p'], .param 0.6)]).1.read ['p'] =
    .ok ((0.6 : ℝ) : EReal) := by
  refine C77_last_partial _ ['p'] ?_ (.param 0.6) ?_
  · intro q hq hv
    simp only [List.mem_cons, List.not_mem_nil, or_false] at hq
    rcases hq with rfl | rfl | rfl | rfl
    · exact absurd hv (by simp [isBounded])
    · exact ⟨by decide, by decide⟩
    · exact absurd hv (by simp [isBounded])
    · exact absurd hv (by simp [isBounded])
  · simp [Attrs.run, Attrs.set, registerBuffer, Attrs.has, Attrs.read, fallback, torchSet, torchSetOther, registerParam, setKey,
      lastSet]

/-- The coupling of a trainable directional coupler cannot be set to a number. -/
example (x : ℝ) : ((({} : Attrs).set ['k'] (.bounded 0 0 1)).1.set ['k'] (.number x)).2 = some .attributeError := by
  refine (C77_rejects _ ['k'] 0 0 1 ?_ ?_ ?_ x).1
  · exact ⟨by simp [Attrs.set, registerParam, Attrs.has, Attrs.read, fallback, setKey],
      by simp [Attrs.set, registerParam, Attrs.has, Attrs.read, fallback, setKey]⟩
  · simp [Attrs.set, registerParam, Attrs.has, Attrs.read, fallback, setKey]
  · simp [Attrs.set, registerParam, Attrs.has, Attrs.read, fallback, setKey]

end PT
