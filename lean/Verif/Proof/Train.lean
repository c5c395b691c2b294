import Verif.Props.Attr
import Verif.Props.Construct
import Verif.Spec.Train

/-! Proofs about constructors as assignments, and training. -/

namespace PT
open Spec Attrs

/-- The value `v` is where an assignment to a new attribute puts it. -/
def Put (s : Attrs) (a : Str) : AVal → Prop
  | .bounded w lo hi => s.props a = true ∧ s.params ('_' :: a) = some (.bounded w lo hi)
  | .param x => s.props a = false ∧ s.dict a = none ∧ s.params a = some (.param x) ∧ s.buffers a = none
  | .buffer x => s.props a = false ∧ s.dict a = none ∧ s.params a = none ∧ s.buffers a = some (.buffer x)
  | v => s.props a = false ∧ s.dict a = some v

theorem Put.read {s : Attrs} {a : Str} {v : AVal} (h : Put s a v) : s.read a = .ok (seen v) := by
  cases v with
  | number x => rw [read_plain h.1, h.2]; rfl
  | tensor x => rw [read_plain h.1, h.2]; rfl
  | param x => rw [read_plain h.1, h.2.1]; simp only [fallback, h.2.2.1]; rfl
  | buffer x => rw [read_plain h.1, h.2.1]; simp only [fallback, h.2.2.1, h.2.2.2]; rfl
  | bounded w lo hi => unfold Attrs.read; rw [h.1, h.2]; rfl

/-- Nothing is stored under the name. -/
def Fresh (s : Attrs) (a : Str) : Prop := s.dict a = none ∧ s.params a = none ∧ s.buffers a = none ∧ s.props a = false

theorem Fresh.has {s : Attrs} {a : Str} (h : Fresh s a) : s.has a = false := by
  unfold Attrs.has
  rw [read_plain h.2.2.2, h.1]
  simp only [fallback, h.2.1, h.2.2.1]

theorem Fresh.put {s : Attrs} {a : Str} (h : Fresh s a) (h' : Fresh s ('_' :: a)) (v : AVal) :
    (s.set a v).2 = none ∧ Put (s.set a v).1 a v := by
  obtain ⟨h1, h2, h3, h4⟩ := h
  have hh : s.has a = false := Fresh.has ⟨h1, h2, h3, h4⟩
  have hh' : s.has ('_' :: a) = false := h'.has
  cases v with
  | number x =>
    simp only [Attrs.set, torchSet, torchSetOther, objectSet, h2, h3, h4, Option.isSome_none, Bool.false_eq_true, if_false]
    exact ⟨trivial, h4, setKey_same _ _ _⟩
  | tensor x =>
    simp only [Attrs.set, torchSet, torchSetOther, objectSet, h2, h3, h4, Option.isSome_none, Bool.false_eq_true, if_false]
    exact ⟨trivial, h4, setKey_same _ _ _⟩
  | param x =>
    have hf : Attrs.has { s with dict := setKey s.dict a none, buffers := setKey s.buffers a none } a = false :=
      Fresh.has ⟨setKey_same _ _ _, h2, setKey_same _ _ _, h4⟩
    simp only [Attrs.set, torchSet, registerParam, hf, Bool.false_and, Bool.false_eq_true, if_false]
    exact ⟨trivial, h4, setKey_same _ _ _, setKey_same _ _ _, setKey_same _ _ _⟩
  | buffer x =>
    simp only [Attrs.set, registerBuffer, hh, Bool.false_and, Bool.false_eq_true, if_false, torchSet, torchSetOther, h2,
      Option.isSome_none, setKey_same, Option.isSome_some, if_true]
    exact ⟨trivial, h4, h1, h2, setKey_same _ _ _⟩
  | bounded w lo hi =>
    simp only [Attrs.set, registerParam, hh', Bool.false_and, Bool.false_eq_true, if_false]
    exact ⟨trivial, setKey_same _ _ _, setKey_same _ _ _⟩

theorem Put.congr {s t : Attrs} {a : Str} {v : AVal} (h : Put s a v) (h1 : SameAt a t s) (h2 : SameAt ('_' :: a) t s) : Put t a v := by
  obtain ⟨a1, a2, a3, a4⟩ := h1
  cases v with
  | number x => exact ⟨a4.trans h.1, a1.trans h.2⟩
  | tensor x => exact ⟨a4.trans h.1, a1.trans h.2⟩
  | param x => exact ⟨a4.trans h.1, a1.trans h.2.1, a2.trans h.2.2.1, a3.trans h.2.2.2⟩
  | buffer x => exact ⟨a4.trans h.1, a1.trans h.2.1, a2.trans h.2.2.1, a3.trans h.2.2.2⟩
  | bounded w lo hi => exact ⟨a4.trans h.1, h2.2.1.trans h.2⟩

theorem Fresh.congr {s t : Attrs} {a : Str} (h : Fresh s a) (h1 : SameAt a t s) : Fresh t a :=
  ⟨h1.1.trans h.1, h1.2.1.trans h.2.1, h1.2.2.1.trans h.2.2.1, h1.2.2.2.trans h.2.2.2⟩

/-- A name of an attribute: no underscore in front. -/
def Public (a : Str) : Prop := ∀ b, a ≠ '_' :: b

instance (a : Str) : Decidable (Public a) :=
  match a with
  | [] => .isTrue fun _ h => by cases h
  | c :: l => if h : c = '_' then .isFalse fun h' => h' l (by rw [h]) else .isTrue fun b h' => h (by injection h')

theorem key_ne {a b : Str} (ha : Public a) (hb : Public b) (h : a ≠ b) (v u : AVal) : v.key a ≠ u.key b := by
  intro e
  cases v <;> cases u <;> simp only [AVal.key] at e
  all_goals first
    | exact h e
    | exact ha _ e
    | exact hb _ e.symm
    | exact h (List.cons.inj e).2

/-- What an object holds after its construction. -/
def HoldsAll (o : Obj) (l : List (Str × AVal × Bool)) : Prop := ∀ q ∈ l, Put o.attrs q.1 q.2.1 ∧ o.grad (q.2.1.key q.1) = q.2.2

theorem assign_holds : ∀ (l done : List (Str × AVal × Bool)) (o : Obj), HoldsAll o done → (∀ q ∈ done ++ l, Public q.1) →
    ((done ++ l).map (·.1)).Nodup → (∀ q ∈ l, Fresh o.attrs q.1 ∧ Fresh o.attrs ('_' :: q.1)) →
    ∃ o', o.assign l = .ok o' ∧ HoldsAll o' (done ++ l) ∧ o'.kind = o.kind ∧ o'.weights = o.weights
  | [], done, o, hd, _, _, _ => ⟨o, rfl, by rwa [List.append_nil], rfl, rfl⟩
  | (a, v, g) :: l, done, o, hd, hp, hn, hf => by
    obtain ⟨f1, f2⟩ := hf _ List.mem_cons_self
    obtain ⟨e1, e2⟩ := f1.put f2 v
    have ha : Public a := hp (a, v, g) (by simp)
    have hne : ∀ q, q ∈ done ∨ q ∈ l → q.1 ≠ a := by
      intro q hq h
      rw [List.map_append, List.map_cons, List.nodup_append] at hn
      rcases hq with hq | hq
      · exact hn.2.2 q.1 (List.mem_map_of_mem hq) a List.mem_cons_self h
      · exact (List.nodup_cons.1 hn.2.1).1 (List.mem_map.2 ⟨q, hq, h⟩)
    have hpub : ∀ q, q ∈ done ∨ q ∈ l → Public q.1 := fun q hq => hp q (by
      rw [List.mem_append, List.mem_cons]
      rcases hq with hq | hq
      · exact .inl hq
      · exact .inr (.inr hq))
    have hs1 : ∀ q, q ∈ done ∨ q ∈ l → SameAt q.1 (o.attrs.set a v).1 o.attrs := fun q hq =>
      set_frame o.attrs v (hne q hq) fun _ => hpub q hq _
    have hs2 : ∀ q, q ∈ done ∨ q ∈ l → SameAt ('_' :: q.1) (o.attrs.set a v).1 o.attrs := fun q hq =>
      set_frame o.attrs v (fun h => ha _ h.symm) fun _ h => hne q hq (List.cons.inj h).2
    obtain ⟨o', h1, h2, h3, h4⟩ := assign_holds l (done ++ [(a, v, g)])
      { o with attrs := (o.attrs.set a v).1, grad := setKey o.grad (v.key a) g } (by
        intro q hq
        rw [List.mem_append, List.mem_singleton] at hq
        rcases hq with hq | rfl
        · exact ⟨(hd q hq).1.congr (hs1 q (.inl hq)) (hs2 q (.inl hq)),
            (setKey_ne _ _ (key_ne (hpub q (.inl hq)) ha (hne q (.inl hq)) _ _)).trans (hd q hq).2⟩
        · exact ⟨e2, setKey_same _ _ _⟩)
      (by rw [List.append_assoc]; exact hp) (by rw [List.append_assoc]; exact hn)
      (fun q hq => ⟨(hf q (List.mem_cons_of_mem _ hq)).1.congr (hs1 q (.inr hq)),
        (hf q (List.mem_cons_of_mem _ hq)).2.congr (hs2 q (.inr hq))⟩)
    refine ⟨o', ?_, by rwa [List.append_assoc] at h2, h3, h4⟩
    unfold Obj.assign
    rcases hr : o.attrs.set a v with ⟨s, _ | e⟩
    · rw [hr] at h1; exact h1
    · rw [hr] at e1; cases e1

theorem blank_assign (k : Cls) (l : List (Str × AVal × Bool)) (hp : ∀ q ∈ l, Public q.1) (hn : (l.map (·.1)).Nodup) :
    ∃ o, (Obj.blank k).assign l = .ok o ∧ HoldsAll o l ∧ o.kind = k ∧ o.weights = none := by
  obtain ⟨o, h1, h2, h3, h4⟩ := assign_holds l [] (Obj.blank k) (fun q hq => by cases hq) hp hn
    (fun q _ => ⟨⟨rfl, rfl, rfl, rfl⟩, ⟨rfl, rfl, rfl, rfl⟩⟩)
  exact ⟨o, h1, h2, h3, h4⟩

/-- The assignments of an object that has been trained. -/
noncomputable def bumped (δ : Str → ℝ) (q : Str × AVal × Bool) : Str × AVal × Bool :=
  (q.1, if q.2.2 then q.2.1.bump (δ (q.2.1.key q.1)) else q.2.1, q.2.2)

theorem bump_key (a : Str) (δ : ℝ) (v : AVal) : (v.bump δ).key a = v.key a := by cases v <;> rfl

theorem train_holds {o : Obj} {l : List (Str × AVal × Bool)} (h : HoldsAll o l) (δ : (Str → ℝ) × (ℕ → ℕ → ℕ → ℝ)) :
    HoldsAll (o.train δ) (l.map (bumped δ.1)) := by
  intro q hq
  obtain ⟨⟨a, v, g⟩, hp, rfl⟩ := List.mem_map.1 hq
  obtain ⟨h1, h2⟩ := h _ hp
  simp only at h1 h2
  refine ⟨?_, ?_⟩
  · simp only [bumped]
    cases v with
    | number x => cases g <;> exact h1
    | tensor x => cases g <;> exact h1
    | buffer x =>
      have : Put (o.train δ).attrs a (.buffer x) := ⟨h1.1, h1.2.1, by simp [Obj.train, h1.2.2.1], h1.2.2.2⟩
      cases g <;> exact this
    | param x =>
      simp only [AVal.key] at h2 ⊢
      cases g with
      | false => exact ⟨h1.1, h1.2.1, by simp [Obj.train, h1.2.2.1, h2], h1.2.2.2⟩
      | true => exact ⟨h1.1, h1.2.1, by simp [Obj.train, h1.2.2.1, h2, AVal.bump], h1.2.2.2⟩
    | bounded w lo hi =>
      simp only [AVal.key] at h2 ⊢
      cases g with
      | false => exact ⟨h1.1, by simp [Obj.train, h1.2, h2]⟩
      | true => exact ⟨h1.1, by simp [Obj.train, h1.2, h2, AVal.bump]⟩
  · simp only [bumped]
    have : (o.train δ).grad = o.grad := rfl
    rw [this]
    cases g
    · exact h2
    · rw [if_pos rfl, bump_key]; exact h2

theorem HoldsAll.num {o : Obj} {l : List (Str × AVal × Bool)} (h : HoldsAll o l) {a : Str} {v : AVal} {g : Bool} (hm : (a, v, g) ∈ l) :
    o.num a = .ok (seen v).toReal := by
  unfold Obj.num
  rw [(h _ hm).1.read]
  rfl

/-- An assignment after a history of training. -/
noncomputable def later (δs : List ((Str → ℝ) × (ℕ → ℕ → ℕ → ℝ))) (q : Str × AVal × Bool) : Str × AVal × Bool :=
  δs.foldl (fun q δ => bumped δ.1 q) q

theorem history_holds {o : Obj} {l : List (Str × AVal × Bool)} (h : HoldsAll o l) (δs : List ((Str → ℝ) × (ℕ → ℕ → ℕ → ℝ))) :
    HoldsAll (δs.foldl Obj.train o) (l.map (later δs)) := by
  induction δs generalizing o l with
  | nil =>
    have : l.map (later []) = l := by rw [show later [] = id from rfl, List.map_id]
    rw [this]
    exact h
  | cons δ δs ih =>
    have := ih (train_holds h δ)
    rw [List.map_map] at this
    exact this

theorem history_kind (o : Obj) (δs : List ((Str → ℝ) × (ℕ → ℕ → ℕ → ℝ))) : (δs.foldl Obj.train o).kind = o.kind := by
  induction δs generalizing o with
  | nil => rfl
  | cons δ δs ih => exact (ih _).trans rfl

theorem later_plain (δs : List ((Str → ℝ) × (ℕ → ℕ → ℕ → ℝ))) (a : Str) (x : ℝ) : later δs (plain a x) = plain a x := by
  induction δs with
  | nil => rfl
  | cons δ δs ih => exact ih

theorem later_param (δs : List ((Str → ℝ) × (ℕ → ℕ → ℕ → ℝ))) (a : Str) (x : ℝ) (t : Bool) :
    later δs (paramOrBuffer a x t) = paramOrBuffer a (if t then x + added δs a else x) t := by
  cases t with
  | false =>
    induction δs with
    | nil => rfl
    | cons δ δs ih => exact ih
  | true =>
    induction δs generalizing x with
    | nil => simp [later, added]
    | cons δ δs ih =>
      refine (ih (x + δ.1 a)).trans ?_
      simp only [if_true, added, List.map_cons, List.sum_cons, add_assoc]

theorem later_buffer (δs : List ((Str → ℝ) × (ℕ → ℕ → ℕ → ℝ))) (a : Str) (x : ℝ) : later δs (a, .buffer x, false) = (a, .buffer x, false) := by
  induction δs with
  | nil => rfl
  | cons δ δs ih => exact ih

theorem later_bounded (δs : List ((Str → ℝ) × (ℕ → ℕ → ℕ → ℝ))) (a : Str) (w : EReal) (lo hi : ℝ) (t : Bool) :
    later δs (a, .bounded w lo hi, t) = (a, .bounded (if t then w + (added δs ('_' :: a) : ℝ) else w) lo hi, t) := by
  cases t with
  | false =>
    induction δs with
    | nil => rfl
    | cons δ δs ih => exact ih
  | true =>
    induction δs generalizing w with
    | nil => simp [later, added]
    | cons δ δs ih =>
      refine (ih (w + (δ.1 ('_' :: a) : ℝ))).trans ?_
      simp only [if_true, added, List.map_cons, List.sum_cons, add_assoc, EReal.coe_add]

theorem cos_modTwoPi_add (y x : ℝ) : Real.cos (y + modTwoPi x) = Real.cos (y + x) ∧ Real.sin (y + modTwoPi x) = Real.sin (y + x) := by
  have e : y + modTwoPi x = y + x - ⌊x / (2 * Real.pi)⌋ * (2 * Real.pi) := by unfold modTwoPi; ring
  rw [e]
  exact ⟨Real.cos_sub_int_mul_two_pi _ _, Real.sin_sub_int_mul_two_pi _ _⟩

theorem waveguide_phase (length loss neff wl0 ng φ wl : ℝ) :
    waveguideSet length loss neff wl0 ng φ wl = waveguideS length loss neff wl0 ng φ wl := by
  unfold waveguideSet waveguideS
  simp only [(cos_modTwoPi_add _ _).1, (cos_modTwoPi_add _ _).2]

theorem longCoupler_phase (length k loss φ : ℝ) : longCouplerSet length k loss φ = longCouplerS length k loss φ := by
  have h := cos_modTwoPi_add 0 φ
  rw [zero_add, zero_add] at h
  unfold longCouplerSet longCouplerS
  simp only [h.1, h.2]

theorem waveguide_shift (length loss neff wl0 ng φ δ wl : ℝ) :
    waveguideSet length loss neff wl0 ng (modTwoPi φ + δ) wl = waveguideS length loss neff wl0 ng (φ + δ) wl := by
  rw [← waveguide_phase]
  have h := cos_modTwoPi_add (propagation length neff wl0 ng wl + δ) φ
  have e1 : propagation length neff wl0 ng wl + (modTwoPi φ + δ) = propagation length neff wl0 ng wl + δ + modTwoPi φ := by ring
  have e2 : propagation length neff wl0 ng wl + (φ + δ) = propagation length neff wl0 ng wl + δ + φ := by ring
  unfold waveguideSet
  simp only [e1, e2, h.1, h.2]

theorem longCoupler_shift (length k loss φ δ : ℝ) :
    longCouplerSet length k loss (modTwoPi φ + δ) = longCouplerS length k loss (φ + δ) := by
  rw [← longCoupler_phase]
  have h := cos_modTwoPi_add δ φ
  have e1 : modTwoPi φ + δ = δ + modTwoPi φ := by ring
  have e2 : φ + δ = δ + φ := by ring
  unfold longCouplerSet
  simp only [e1, e2, h.1, h.2]

end PT
