import Verif.Proof.Nested
import Verif.Props.Named
import Verif.Proof.CrowNet

/-!
# C96: networks of networks behave as the circuit drawn on one sheet
-/

namespace PT
open Spec Matrix

variable {W B : Type} {d d₀ : Dev} {s : Sheet}

theorem drawn_nonempty (h : Drawn d s) : s.parts ≠ [] := by
  have key : ∀ {name : Option Str} {modules : List (Str × Dev)} {cs : List Conn} {sheet : Str → Sheet} {d : Dev}
      {D : List (Str × ℤ)}, GoodConns cs → cs ≠ [] → mkDev name modules (cs.map Conn.text) = .ok d →
      (∀ q ∈ modules, (sheet q.1).parts ≠ []) → (Sheet.merge sheet cs D).parts ≠ [] := by
    intro name modules cs sheet d D hg hne hd hm h0
    have h0' : (firstMentions cs).flatMap (fun x => (sheet x).parts) = [] := h0
    obtain ⟨l, hl, hlay, -⟩ := mkDev_ok hg hd
    have hlay1 := hlay.1
    rw [List.map_map] at hlay1
    cases cs with
    | nil => exact hne rfl
    | cons c cs =>
      have hx : ∃ x, x ∈ c.names := by cases c <;> exact ⟨_, List.mem_cons_self⟩
      obtain ⟨x, hx⟩ := hx
      have hx' : x ∈ firstMentions (c :: cs) := mem_firstMentions.mpr ⟨c, List.mem_cons_self, hx⟩
      have hx2 := hx'
      rw [← hlay1, List.mem_map] at hx2
      obtain ⟨q, hq, rfl⟩ := hx2
      exact hm _ (dictGet_mem (hl q hq)) (List.flatMap_eq_nil_iff.mp h0' q.1 hx')
  induction h with
  | part x p hp => exact List.cons_ne_nil _ _
  | net name modules cs sheet d hm hg hne hno hn hs hd ih => exact key hg hne hd ih
  | declared name modules cs sheet d D hm hg hne hp ho hd =>
    refine key hg hne hd fun q hq => ?_
    obtain ⟨x, p, -, -, hs⟩ := hm q hq
    rw [hs]
    exact List.cons_ne_nil _ _

/-- C96. The circuit a network stands for is a closed circuit of named components (C94) when no ports are left. -/
theorem C96_closed (h : Drawn d s) (hf : s.free = []) (hn : (s.parts.map Prod.fst).Nodup) (hg : ∀ q ∈ s.parts, GoodName q.1) :
    Closed s.parts s.conns := by
  have hL := drawn_lies h hn
  have honce := hL.once
  rw [hf, List.append_nil] at honce
  exact ⟨hn, hg, hL.sized, drawn_nonempty h, honce, hL.inner⟩

theorem Spec.Steady.emits {parts : List (Str × Part)} {cs : List Conn} {wl : ℝ} {e e' : Str → ℂ} {A B : Str → ℕ → ℂ}
    (he : ∀ q ∈ parts, isSource q.2 = true → e q.1 = e' q.1) (h : Steady parts cs wl e A B) : Steady parts cs wl e' A B := by
  refine ⟨h.joined, fun q hq i => ?_⟩
  rw [h.scattered q hq i]
  congr 1
  split
  · rename_i hs; exact he q hq hs
  · rfl

theorem Spec.Moving.emits {parts : List (Str × Part)} {cs : List Conn} {wl v dt : ℝ} {T : ℕ} {e e' : ℕ → Str → ℂ}
    {A B : ℕ → Str → ℕ → ℂ} (he : ∀ t, ∀ q ∈ parts, isSource q.2 = true → e t q.1 = e' t q.1)
    (h : Moving parts cs wl v dt T e A B) : Moving parts cs wl v dt T e' A B := by
  refine ⟨h.joined, fun t ht q hq i => ?_⟩
  rw [h.scattered t ht q hq i]
  congr 1
  split
  · rename_i hs; exact he t q hq hs
  · rfl

theorem getD_idxOf {x : Str} {L : List Str} (h : x ∈ L) : L.getD (L.idxOf x) [] = x := by
  rw [List.getD_eq_getElem?_getD, List.getElem?_eq_getElem (List.idxOf_lt_length_of_mem h)]
  simp

/-- C96. The network and the flat circuit are initialized together. -/
theorem C96_initialized (h : Drawn d s) (hf : s.free = []) (hn : (s.parts.map Prod.fst).Nodup)
    (hg : ∀ q ∈ s.parts, GoodName q.1) (hdet : ∃ q ∈ s.parts, isDetector q.2 = true) (name : Option Str)
    (hd₀ : mkDev name (s.parts.map fun q => (q.1, q.2.dev)) (s.conns.map Conn.text) = .ok d₀)
    (v : ℝ) (wl : W → ℝ) (env : SimEnv) :
    ((∃ r, initNet (d.plant v wl) env = .ok (some r)) ↔ ∃ r, initNet (d₀.plant v wl) env = .ok (some r)) ∧
    (initNet (d.plant v wl) env = .error .runtimeError ↔ initNet (d₀.plant v wl) env = .error .runtimeError) := by
  have hC := C96_closed h hf hn hg
  obtain ⟨l, hP₀⟩ := placed_of hC hd₀
  have hP := drawn_placed h hf hn
  have hh : ∃ q ∈ s.parts, Holds env v q.2 := by
    obtain ⟨q, hq, hd⟩ := hdet
    exact ⟨q, hq, .inr (.inl hd)⟩
  have h1 := placed_initialized hP hC.sized v wl env hh
  have h2 := placed_initialized hP₀ hC.sized v wl env hh
  by_cases ht : ∀ w A B, Trapped env v s.parts s.conns (wl w) A B → ∀ q ∈ s.parts, ∀ i < q.2.n, A q.1 i = 0
  · obtain ⟨r, hr⟩ := h1.1 ht
    obtain ⟨r₀, hr₀⟩ := h2.1 ht
    refine ⟨⟨fun _ => ⟨r₀, hr₀⟩, fun _ => ⟨r, hr⟩⟩, ?_, ?_⟩
    · intro he; rw [hr] at he; cases he
    · intro he; rw [hr₀] at he; cases he
  · push Not at ht
    obtain ⟨w, A, B, hT, q, hq, i, hi, hA⟩ := ht
    have e1 := h1.2 w A B hT ⟨q, hq, i, hi, hA⟩
    have e2 := h2.2 w A B hT ⟨q, hq, i, hi, hA⟩
    refine ⟨⟨?_, ?_⟩, fun _ => e2, fun _ => e1⟩
    · rintro ⟨r, hr⟩; rw [e1] at hr; cases hr
    · rintro ⟨r, hr⟩; rw [e2] at hr; cases hr

/-- C96. In the frequency domain, sources sending the same light by name are detected with the same light by name. The
channels of the network are in the order of the drawing. -/
theorem C96_frequency (h : Drawn d s) (hf : s.free = []) (hn : (s.parts.map Prod.fst).Nodup)
    (hg : ∀ q ∈ s.parts, GoodName q.1) (hdet : ∃ q ∈ s.parts, isDetector q.2 = true) (name : Option Str)
    (hd₀ : mkDev name (s.parts.map fun q => (q.1, q.2.dev)) (s.conns.map Conn.text) = .ok d₀)
    (v : ℝ) (wl : W → ℝ) (env : SimEnv) (hfd : env.freqdomain = true) (ht1 : env.t.length = 1) (r r₀ : Reduced W)
    (hr : initNet (d.plant v wl) env = .ok (some r)) (hr₀ : initNet (d₀.plant v wl) env = .ok (some r₀))
    (acts acts₀ : List (Actor W B)) (light : ℕ → Str → W → B → ℝ × ℝ) :
    ∃ o o₀, forwardReduced r env acts
        (fun t k => light t ((emittersIn (s.parts.map Prod.fst) s.parts).getD k [])) = .ok [o] ∧
      forwardReduced r₀ env acts₀ (fun t k => light t ((emitters s.parts s.conns).getD k [])) = .ok [o₀] ∧
      ∀ w b, ∃ seen : Str → ℂ,
        (o w b).map asComplex = (listenersIn (s.parts.map Prod.fst) s.parts).map seen ∧
        (o₀ w b).map asComplex = (listeners s.parts s.conns).map seen := by
  have hC := C96_closed h hf hn hg
  obtain ⟨l, hP₀⟩ := placed_of hC hd₀
  have hP := drawn_placed h hf hn
  obtain ⟨o, ho, H⟩ := placed_frequency hP hC.sized hdet v wl env hfd ht1 r hr acts
    (fun t k => light t ((emittersIn (s.parts.map Prod.fst) s.parts).getD k []))
  obtain ⟨o₀, ho₀, H₀⟩ := placed_frequency hP₀ hC.sized hdet v wl env hfd ht1 r₀ hr₀ acts₀
    (fun t k => light t ((emitters s.parts s.conns).getD k []))
  refine ⟨o, o₀, ho, ho₀, fun w b => ?_⟩
  obtain ⟨⟨A, B', hS⟩, H⟩ := H w b
  refine ⟨fun x => A x 0, H A B' hS, (H₀ w b).2 A B' (hS.emits fun q hq hs => ?_)⟩
  simp only [emitters]
  rw [getD_idxOf ((mem_emitters hP hq).1.mpr hs), getD_idxOf ((mem_emitters hP₀ hq).1.mpr hs)]

/-- C96, the same in the time domain. -/
theorem C96_time (h : Drawn d s) (hf : s.free = []) (hn : (s.parts.map Prod.fst).Nodup)
    (hg : ∀ q ∈ s.parts, GoodName q.1) (hdet : ∃ q ∈ s.parts, isDetector q.2 = true) (name : Option Str)
    (hd₀ : mkDev name (s.parts.map fun q => (q.1, q.2.dev)) (s.conns.map Conn.text) = .ok d₀)
    (v : ℝ) (wl : W → ℝ) (env : SimEnv) (dt : ℝ) (hdt : env.dt = some dt) (hpos : 0 < dt) (hfd : env.freqdomain = false)
    (r r₀ : Reduced W) (hr : initNet (d.plant v wl) env = .ok (some r)) (hr₀ : initNet (d₀.plant v wl) env = .ok (some r₀))
    (acts acts₀ : List (Actor W B)) (light : ℕ → Str → W → B → ℝ × ℝ) :
    ∃ out out₀, forwardReduced r env acts
        (fun t k => light t ((emittersIn (s.parts.map Prod.fst) s.parts).getD k [])) = .ok out ∧
      forwardReduced r₀ env acts₀ (fun t k => light t ((emitters s.parts s.conns).getD k [])) = .ok out₀ ∧
      out.length = env.t.length ∧ out₀.length = env.t.length ∧
      ∀ w b, ∃ seen : ℕ → Str → ℂ, ∀ t (ht : t < out.length) (ht₀ : t < out₀.length),
        (out[t] w b).map asComplex = (listenersIn (s.parts.map Prod.fst) s.parts).map (seen t) ∧
        (out₀[t] w b).map asComplex = (listeners s.parts s.conns).map (seen t) := by
  have hC := C96_closed h hf hn hg
  obtain ⟨l, hP₀⟩ := placed_of hC hd₀
  have hP := drawn_placed h hf hn
  obtain ⟨out, ho, hlen, H⟩ := placed_time hP hC.sized hdet v wl env dt hdt hpos hfd r hr acts
    (fun t k => light t ((emittersIn (s.parts.map Prod.fst) s.parts).getD k []))
  obtain ⟨out₀, ho₀, hlen₀, H₀⟩ := placed_time hP₀ hC.sized hdet v wl env dt hdt hpos hfd r₀ hr₀ acts₀
    (fun t k => light t ((emitters s.parts s.conns).getD k []))
  refine ⟨out, out₀, ho, ho₀, hlen, hlen₀, fun w b => ?_⟩
  obtain ⟨⟨A, B', hS⟩, H⟩ := H w b
  refine ⟨fun t x => A t x 0, fun t ht ht₀ => ⟨H A B' hS t ht, (H₀ w b).2 A B' (hS.emits fun t q hq hs => ?_) t ht₀⟩⟩
  simp only [emitters]
  rw [getD_idxOf ((mem_emitters hP hq).1.mpr hs), getD_idxOf ((mem_emitters hP₀ hq).1.mpr hs)]

theorem mem_boxes {modules : List (Str × Dev)} {cs : List Conn} {sheet : Str → Sheet} {D : List (Str × ℤ)}
    (hm : ∀ q ∈ modules, Drawn q.2 (sheet q.1)) (hmod : ∀ x ∈ firstMentions cs, ∃ e, dictGet x modules = some e)
    (hn : ((Sheet.merge sheet cs D).parts.map Prod.fst).Nodup) :
    ∀ x ∈ firstMentions cs, ∃ e, dictGet x modules = some e ∧ (freePorts e.comp).length = (sheet x).free.length := by
  intro x hx
  obtain ⟨e, he⟩ := hmod x hx
  refine ⟨e, he, ?_⟩
  rw [(drawn_lies (hm _ (dictGet_mem he)) (merge_nodup hn hx)).free, List.length_map]

/-- C96. Networks with connections as described are accepted: without external declarations … -/
theorem C96_built (name : Option Str) (modules : List (Str × Dev)) (cs : List Conn) (sheet : Str → Sheet)
    (hm : ∀ q ∈ modules, Drawn q.2 (sheet q.1)) (hmod : ∀ x ∈ firstMentions cs, ∃ e, dictGet x modules = some e)
    (hg : GoodConns cs) (hne : cs ≠ []) (hno : outs cs = []) (hend : (endpoints cs).Nodup)
    (hin : ∀ e ∈ endpoints cs, e ∈ boxPorts sheet cs)
    (hn : (((firstMentions cs).flatMap fun x => (sheet x).parts).map Prod.fst).Nodup) :
    ∃ d, mkDev name modules (cs.map Conn.text) = .ok d ∧
      Drawn d (.merge sheet cs ((boxPorts sheet cs).filter fun e => decide (e ∉ endpoints cs))) := by
  have hperm := filter_rest_perm (f := fun e => decide (e ∉ endpoints cs)) (fun e => decide_eq_true_iff) hend
    (boxPorts_nodup sheet cs) hin
  obtain ⟨d, hd, -⟩ := open_made (P := fun _ => True) name (sheet_plan hg hperm) rfl (fun q hq => drawn_made (hm q hq))
    (mem_boxes (D := []) hm hmod hn) hno hne rfl
  exact ⟨d, hd, .net name modules cs sheet d hm hg hne hno hend hin hd⟩

/-- C96. … and with external declarations on basic components. -/
theorem C96_built_declared (name : Option Str) (parts : List (Str × Part)) (cs : List Conn) (call : Str → Str)
    (sheet : Str → Sheet) (D : List (Str × ℤ)) (hp : ∀ q ∈ parts, 0 < q.2.n ∧ sheet q.1 = .single (call q.1) q.2)
    (hmod : ∀ x ∈ firstMentions cs, ∃ p, dictGet x parts = some p) (hg : GoodConns cs) (hne : cs ≠ [])
    (honce : (endpoints cs ++ D).Perm (boxPorts sheet cs))
    (hout : (outs cs).Perm (D.zipIdx.map fun e => (e.1, (e.2 : ℤ)))) :
    ∃ d, mkDev name (parts.map fun q => (q.1, q.2.dev)) (cs.map Conn.text) = .ok d ∧ Drawn d (.merge sheet cs D) := by
  obtain ⟨h1, h2⟩ := zip_declared hout
  obtain ⟨d, hd, -⟩ := leaf_made (P := fun _ => True) name (sheet_plan hg honce) rfl (fun q hq => ⟨trivial, (hp q hq).1⟩)
    (fun x hx => by
      obtain ⟨p, hpx⟩ := hmod x hx
      refine ⟨p, hpx, ?_⟩
      have := (hp _ (dictGet_mem hpx)).2
      simp only at this
      show p.n = (sheet x).free.length
      rw [this]
      simp [Sheet.single, portNames]) h1 h2 hne
  refine ⟨d, hd, .declared name _ cs sheet d D (fun q hq => ?_) hg hne honce hout hd⟩
  obtain ⟨r, hr, rfl⟩ := List.mem_map.mp hq
  exact ⟨call r.1, r.2, (hp r hr).1, rfl, (hp r hr).2⟩

/-! ## Three waveguides in a row, in a network in a network in a network -/

def boxA : List Conn := [.inner "a".toList 1 "b".toList 0, .outer "a".toList 0 0, .outer "b".toList 1 1]
def boxB : List Conn := [.inner "box".toList 1 "c".toList 0]
def boxC : List Conn := [.inner "s".toList 0 "box".toList 0, .inner "box".toList 1 "d".toList 0]

noncomputable def sheetA (g₁ g₂ : Wg) (x : Str) : Sheet :=
  if x = "a".toList then .single "first".toList g₁.part else .single "second".toList g₂.part

noncomputable def sheetB (g₁ g₂ g₃ : Wg) (x : Str) : Sheet :=
  if x = "box".toList then .merge (sheetA g₁ g₂) boxA [("a".toList, 0), ("b".toList, 1)] else .single "third".toList g₃.part

noncomputable def sheetC (g₁ g₂ g₃ : Wg) (x : Str) : Sheet :=
  if x = "box".toList then .merge (sheetB g₁ g₂ g₃) boxB [("box".toList, 0), ("c".toList, 1)]
  else if x = "s".toList then .single "s".toList .source else .single "d".toList .detector

noncomputable def rowParts (g₁ g₂ g₃ : Wg) : List (Str × Part) :=
  [("s".toList, .source), ("first".toList, g₁.part), ("second".toList, g₂.part), ("third".toList, g₃.part), ("d".toList, .detector)]

def rowConns : List Conn :=
  [.inner "s".toList 0 "first".toList 0, .inner "third".toList 1 "d".toList 0, .inner "second".toList 1 "third".toList 0,
    .inner "first".toList 1 "second".toList 0]

/-- The names are looked up as expected. -/
theorem sheetC_eq (g₁ g₂ g₃ : Wg) : Sheet.merge (sheetC g₁ g₂ g₃) boxC [] = ⟨rowParts g₁ g₂ g₃, rowConns, []⟩ := rfl

theorem row_drawn (g₁ g₂ g₃ : Wg) : ∃ dA dB d,
    mkDev none [("a".toList, g₁.part.dev), ("b".toList, g₂.part.dev)] (boxA.map Conn.text) = .ok dA ∧
    mkDev none [("box".toList, dA), ("c".toList, g₃.part.dev)] (boxB.map Conn.text) = .ok dB ∧
    mkDev none [("s".toList, Part.source.dev), ("box".toList, dB), ("d".toList, Part.detector.dev)] (boxC.map Conn.text) = .ok d ∧
    Drawn d ⟨rowParts g₁ g₂ g₃, rowConns, []⟩ := by
  obtain ⟨dA, hA, hA'⟩ := C96_built_declared none [("a".toList, g₁.part), ("b".toList, g₂.part)] boxA
    (fun x => if x = "a".toList then "first".toList else "second".toList) (sheetA g₁ g₂) [("a".toList, 0), ("b".toList, 1)] (by
      intro q hq
      simp only [List.mem_cons, List.not_mem_nil, or_false] at hq
      rcases hq with rfl | rfl
      · exact ⟨by simp [Wg.part], rfl⟩
      · exact ⟨by simp [Wg.part], rfl⟩) (by
      intro x hx
      have hx' : x ∈ ["a".toList, "b".toList] := hx
      simp only [List.mem_cons, List.not_mem_nil, or_false] at hx'
      rcases hx' with rfl | rfl
      · exact ⟨_, rfl⟩
      · exact ⟨_, rfl⟩) (goodConns_dec (by decide)) (by simp [boxA]) (by
      show List.Perm _ [("a".toList, 0), ("a".toList, 1), ("b".toList, 0), ("b".toList, 1)]
      decide) (by decide)
  obtain ⟨dB, hB, hB'⟩ := C96_built none [("box".toList, dA), ("c".toList, g₃.part.dev)] boxB (sheetB g₁ g₂ g₃) (by
      intro q hq
      simp only [List.mem_cons, List.not_mem_nil, or_false] at hq
      rcases hq with rfl | rfl
      · exact hA'
      · exact .part _ _ (by simp [Wg.part])) (by
      intro x hx
      have hx' : x ∈ ["box".toList, "c".toList] := hx
      simp only [List.mem_cons, List.not_mem_nil, or_false] at hx'
      rcases hx' with rfl | rfl
      · exact ⟨_, rfl⟩
      · exact ⟨_, rfl⟩) (goodConns_dec (by decide)) (by simp [boxB]) rfl (by decide) (by
      show ∀ e ∈ endpoints boxB, e ∈ [("box".toList, 0), ("box".toList, 1), ("c".toList, 0), ("c".toList, 1)]
      decide) (by
      show ["first".toList, "second".toList, "third".toList].Nodup
      decide)
  obtain ⟨d, hd, hd'⟩ := C96_built none [("s".toList, Part.source.dev), ("box".toList, dB), ("d".toList, Part.detector.dev)] boxC
    (sheetC g₁ g₂ g₃) (by
      intro q hq
      simp only [List.mem_cons, List.not_mem_nil, or_false] at hq
      rcases hq with rfl | rfl | rfl
      · exact .part _ _ (by simp)
      · exact hB'
      · exact .part _ _ (by simp)) (by
      intro x hx
      have hx' : x ∈ ["s".toList, "box".toList, "d".toList] := hx
      simp only [List.mem_cons, List.not_mem_nil, or_false] at hx'
      rcases hx' with rfl | rfl | rfl
      · exact ⟨_, rfl⟩
      · exact ⟨_, rfl⟩
      · exact ⟨_, rfl⟩) (goodConns_dec (by decide)) (by simp [boxC]) rfl (by decide) (by
      show ∀ e ∈ endpoints boxC, e ∈ [("s".toList, 0), ("box".toList, 0), ("box".toList, 1), ("d".toList, 0)]
      decide) (by
      show ["s".toList, "first".toList, "second".toList, "third".toList, "d".toList].Nodup
      decide)
  exact ⟨dA, dB, d, hA, hB, hd, hd'⟩

theorem row_names (g₁ g₂ g₃ : Wg) : ((rowParts g₁ g₂ g₃).map Prod.fst).Nodup ∧ (∀ q ∈ rowParts g₁ g₂ g₃, GoodName q.1) ∧
    ∃ q ∈ rowParts g₁ g₂ g₃, isDetector q.2 = true := by
  refine ⟨?_, ?_, ("d".toList, .detector), by simp [rowParts], rfl⟩
  · show ["s".toList, "first".toList, "second".toList, "third".toList, "d".toList].Nodup
    decide
  · intro q hq
    simp only [rowParts, List.mem_cons, List.not_mem_nil, or_false] at hq
    rcases hq with rfl | rfl | rfl | rfl | rfl <;> dsimp only <;> exact ⟨by decide, by decide, by decide⟩

/-- The network of networks multiplies the light by the three amplitudes, and so does the flat one. -/
example (g₁ g₂ g₃ : Wg) (wl : ℝ) (env : SimEnv) (hf : env.freqdomain = true) (ht : env.t.length = 1) :
    ∃ d d₀, Drawn d ⟨rowParts g₁ g₂ g₃, rowConns, []⟩ ∧
      mkDev none ((rowParts g₁ g₂ g₃).map fun q => (q.1, q.2.dev)) (rowConns.map Conn.text) = .ok d₀ ∧
      ∃ r r₀, initNet (d.plant 299792458 fun _ : Unit => wl) env = .ok (some r) ∧
        initNet (d₀.plant 299792458 fun _ : Unit => wl) env = .ok (some r₀) ∧
        ∀ light : Unit → Unit → ℝ × ℝ, ∃ o o₀, forwardReduced r env [] (fun _ _ => light) = .ok [o] ∧
          forwardReduced r₀ env [] (fun _ _ => light) = .ok [o₀] ∧ ∀ w b, (o w b).map asComplex = (o₀ w b).map asComplex ∧
            (o w b).map asComplex = [g₃.amp wl * (g₂.amp wl * (g₁.amp wl * asComplex (light w b)))] := by
  obtain ⟨dA, dB, d, -, -, -, hD⟩ := row_drawn g₁ g₂ g₃
  obtain ⟨hn, hg, hdet⟩ := row_names g₁ g₂ g₃
  have hC := C96_closed hD rfl hn hg
  obtain ⟨d₀, hd₀⟩ := C94_built hC none
  have j1 : PT.Spec.Joined rowConns "s".toList 0 "first".toList 0 := Or.inl (by decide)
  have j2 : PT.Spec.Joined rowConns "first".toList 1 "second".toList 0 := Or.inl (by decide)
  have j3 : PT.Spec.Joined rowConns "second".toList 1 "third".toList 0 := Or.inl (by decide)
  have j4 : PT.Spec.Joined rowConns "third".toList 1 "d".toList 0 := Or.inl (by decide)
  have ms : ("s".toList, Part.source) ∈ rowParts g₁ g₂ g₃ := by simp [rowParts]
  have m1 : ("first".toList, g₁.part) ∈ rowParts g₁ g₂ g₃ := by simp [rowParts]
  have m2 : ("second".toList, g₂.part) ∈ rowParts g₁ g₂ g₃ := by simp [rowParts]
  have m3 : ("third".toList, g₃.part) ∈ rowParts g₁ g₂ g₃ := by simp [rowParts]
  have md : ("d".toList, Part.detector) ∈ rowParts g₁ g₂ g₃ := by simp [rowParts]
  have hh : ∀ g : Wg, ¬Holds env 299792458 g.part := by
    rintro g (h | h | ⟨h, -⟩)
    · cases h
    · cases h
    · rw [hf] at h; cases h
  obtain ⟨r₀, hr₀⟩ := (C94_initialized hC none d₀ hd₀ 299792458 (fun _ : Unit => wl) env ⟨_, ms, Or.inl rfl⟩).1 (by
    intro w A B hT
    have s0 := hT.held _ ms (Or.inl rfl) 0 (by decide)
    have d0 := hT.held _ md (Or.inr (Or.inl rfl)) 0 (by decide)
    have a1 : A "first".toList 0 = 0 := (hT.joined _ m1 (hh _) _ _ _ (joined_symm j1)).trans s0.2
    have b1 : B "first".toList 1 = 0 :=
      (hT.scattered _ m1 (hh _) (1 : Fin 2)).trans ((Crow.wg_scatter g₁ wl (A "first".toList)).2.trans (by rw [a1, mul_zero]))
    have a2 : A "second".toList 0 = 0 := (hT.joined _ m2 (hh _) _ _ _ (joined_symm j2)).trans b1
    have b2 : B "second".toList 1 = 0 :=
      (hT.scattered _ m2 (hh _) (1 : Fin 2)).trans ((Crow.wg_scatter g₂ wl (A "second".toList)).2.trans (by rw [a2, mul_zero]))
    have a3 : A "third".toList 0 = 0 := (hT.joined _ m3 (hh _) _ _ _ (joined_symm j3)).trans b2
    have c3 : A "third".toList 1 = 0 := (hT.joined _ m3 (hh _) _ _ _ j4).trans d0.2
    have e3 : B "third".toList 0 = 0 :=
      (hT.scattered _ m3 (hh _) (0 : Fin 2)).trans ((Crow.wg_scatter g₃ wl (A "third".toList)).1.trans (by rw [c3, mul_zero]))
    have c2 : A "second".toList 1 = 0 := (hT.joined _ m2 (hh _) _ _ _ j3).trans e3
    have e2 : B "second".toList 0 = 0 :=
      (hT.scattered _ m2 (hh _) (0 : Fin 2)).trans ((Crow.wg_scatter g₂ wl (A "second".toList)).1.trans (by rw [c2, mul_zero]))
    have c1 : A "first".toList 1 = 0 := (hT.joined _ m1 (hh _) _ _ _ j2).trans e2
    intro q hq i hi
    simp only [rowParts, List.mem_cons, List.not_mem_nil, or_false] at hq
    rcases hq with rfl | rfl | rfl | rfl | rfl
    · have : i = 0 := by simp [Part.n] at hi; exact hi
      rw [this]; exact s0.1
    · have : i = 0 ∨ i = 1 := by simp only [Wg.part, Part.n] at hi; omega
      rcases this with rfl | rfl
      · exact a1
      · exact c1
    · have : i = 0 ∨ i = 1 := by simp only [Wg.part, Part.n] at hi; omega
      rcases this with rfl | rfl
      · exact a2
      · exact c2
    · have : i = 0 ∨ i = 1 := by simp only [Wg.part, Part.n] at hi; omega
      rcases this with rfl | rfl
      · exact a3
      · exact c3
    · have : i = 0 := by simp [Part.n] at hi; exact hi
      rw [this]; exact d0.1)
  obtain ⟨r, hr⟩ := (C96_initialized hD rfl hn hg hdet none hd₀ 299792458 (fun _ : Unit => wl) env).1.mpr ⟨r₀, hr₀⟩
  refine ⟨d, d₀, hD, hd₀, r, r₀, hr, hr₀, fun light => ?_⟩
  obtain ⟨o, o₀, ho, ho₀, H⟩ := C96_frequency hD rfl hn hg hdet none hd₀ 299792458 (fun _ : Unit => wl) env hf ht r r₀ hr hr₀
    ([] : List (Actor Unit Unit)) [] (fun _ _ => light)
  obtain ⟨o', ho', H'⟩ := C94_frequency hC hdet none d₀ hd₀ 299792458 (fun _ : Unit => wl) env hf ht r₀ hr₀
    ([] : List (Actor Unit Unit)) (fun _ _ => light)
  rw [ho₀] at ho'
  simp only [Except.ok.injEq, List.cons.injEq, and_true] at ho'
  subst ho'
  refine ⟨o, o₀, ho, ho₀, fun w b => ?_⟩
  obtain ⟨seen, h1, h2⟩ := H w b
  have e1 : listenersIn ((rowParts g₁ g₂ g₃).map Prod.fst) (rowParts g₁ g₂ g₃) = ["d".toList] := rfl
  have e2 : listeners (rowParts g₁ g₂ g₃) rowConns = ["d".toList] := rfl
  obtain ⟨⟨A, B, hS⟩, H'⟩ := H' w b
  have h3 := H' A B hS
  rw [e1] at h1
  rw [e2] at h2 h3
  refine ⟨h1.trans h2.symm, (h1.trans h2.symm).trans (h3.trans ?_)⟩
  have bs : B "s".toList 0 = asComplex (light w b) := by
    have h := hS.scattered _ ms (0 : Fin 1)
    rw [Crow.end_scatter .source wl (Or.inl rfl), zero_add] at h
    exact h
  have b1 : B "first".toList 1 = g₁.amp wl * A "first".toList 0 := by
    have h := (hS.scattered _ m1 (1 : Fin 2)).trans (congrArg (· + _) (Crow.wg_scatter g₁ wl (A "first".toList)).2)
    rw [if_neg (by simp [Wg.part, isSource]), add_zero] at h
    exact h
  have b2 : B "second".toList 1 = g₂.amp wl * A "second".toList 0 := by
    have h := (hS.scattered _ m2 (1 : Fin 2)).trans (congrArg (· + _) (Crow.wg_scatter g₂ wl (A "second".toList)).2)
    rw [if_neg (by simp [Wg.part, isSource]), add_zero] at h
    exact h
  have b3 : B "third".toList 1 = g₃.amp wl * A "third".toList 0 := by
    have h := (hS.scattered _ m3 (1 : Fin 2)).trans (congrArg (· + _) (Crow.wg_scatter g₃ wl (A "third".toList)).2)
    rw [if_neg (by simp [Wg.part, isSource]), add_zero] at h
    exact h
  rw [List.map_singleton, hS.joined _ _ _ _ (joined_symm j4), b3, hS.joined _ _ _ _ (joined_symm j3), b2,
    hS.joined _ _ _ _ (joined_symm j2), b1, hS.joined _ _ _ _ (joined_symm j1), bs]

end PT
