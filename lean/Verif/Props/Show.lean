import Verif.Proof.Show
import Verif.Props.Keywords

/-!
# C110: the printed forms of an environment

`print(env)`, `repr(env)` and the html table show every attribute once, the numbers with four digits.
-/

namespace PT
open Spec

theorem text_values (e : Env) (f : Str × (Str → Prop) → Str → Str) (g : Str → Str → Str) (hg : ∀ r v, f r v = g r.1 v) :
    List.zipWith f (rows e) (e.shown.map fun kv => kv.2.repr) = e.shown.map fun kv => g kv.1 kv.2.repr := by
  have key : ∀ (rs : List (Str × (Str → Prop))) (l : List (Str × AttrVal)), (l.map fun kv => kv.1) = rs.map (fun r => r.1) →
      List.zipWith f rs (l.map fun kv => kv.2.repr) = l.map fun kv => g kv.1 kv.2.repr := by
    intro rs
    induction rs with
    | nil => intro l h; cases l <;> simp_all
    | cons r rs ih =>
      intro l h
      cases l with
      | nil => simp at h
      | cons kv l =>
        simp only [List.map_cons, List.cons.injEq] at h
        simp only [List.map_cons, List.zipWith_cons_cons]
        rw [ih l h.2, hg, h.1]
  exact key _ _ (shown_rows e).1

/-- C110: `print(env)` writes a heading of two lines and then one line per attribute, in the order of the attributes: its name, a colon in
the same column for all, and its value.  Numbers are wrong by at most 0.05%.  (Names of extra attributes should not contain
line breaks.) -/
theorem C110_str (e : Env) (hx : ∀ kv ∈ openExtras e, '\n' ∉ kv.1) :
    ∃ w vals, List.Forall₂ (fun r v => r.2 v) (rows e) vals ∧ (∀ r ∈ rows e, r.1.length < w) ∧ (∃ r ∈ rows e, r.1.length + 1 = w) ∧
      lines e.str = "Simulation Environment:".toList :: "-----------------------".toList ::
        List.zipWith (fun r v => r.1 ++ List.replicate (w - r.1.length) ' ' ++ ": ".toList ++ v) (rows e) vals ++ [[]] := by
  obtain ⟨hk, hv⟩ := shown_rows e
  obtain ⟨m1, -, m2⟩ := foldl_max (e.shown.map fun kv => kv.1.length) 0
  have hlen : (e.shown.map fun kv => kv.1.length) = (rows e).map fun r => r.1.length := by
    have := congrArg (List.map List.length) hk
    rw [List.map_map, List.map_map] at this
    exact this
  refine ⟨e.colwidth, _, hv, ?_, ?_, ?_⟩
  · intro r hr
    have := m1 r.1.length (by rw [hlen]; exact List.mem_map.mpr ⟨r, hr, rfl⟩)
    unfold Env.colwidth
    omega
  · have : ("name".toList, QuotedText e.name) ∈ rows e := by simp [rows]
    rcases m2 with m2 | m2
    · have h4 := m1 4 (by rw [hlen]; exact List.mem_map.mpr ⟨_, this, rfl⟩)
      omega
    · rw [hlen] at m2
      obtain ⟨r, hr, h⟩ := List.mem_map.mp m2
      refine ⟨r, hr, ?_⟩
      rw [Env.colwidth, hlen, h]
  · rw [text_values e _ (fun k v => k ++ List.replicate (e.colwidth - k.length) ' ' ++ ": ".toList ++ v) (fun _ _ => rfl)]
    have names : ∀ kv ∈ e.shown, '\n' ∉ kv.1 := by
      intro kv hkv
      rw [shown_eq, List.mem_append] at hkv
      rcases hkv with hkv | hkv
      · have : ∀ k ∈ ["name".toList, "t".toList, "t0".toList, "t1".toList, "num_t".toList, "dt".toList, "samplerate".toList,
            "bitrate".toList, "bitlength".toList, "wl".toList, "wl0".toList, "wl1".toList, "num_wl".toList, "dwl".toList, "f".toList,
            "f0".toList, "f1".toList, "num_f".toList, "df".toList, "c".toList, "freqdomain".toList, "grad".toList], '\n' ∉ k := by
          decide +kernel
        apply this
        have := List.mem_map_of_mem (f := fun kv => kv.1) hkv
        simpa only [List.map_cons, List.map_nil] using this
      · obtain ⟨x, hx', rfl⟩ := List.mem_map.mp hkv
        exact hx x hx'
    have head : "Simulation Environment:\n-----------------------\n".toList =
        "Simulation Environment:".toList ++ '\n' :: ("-----------------------".toList ++ '\n' :: []) := by decide +kernel
    unfold Env.str
    rw [head, List.append_assoc, List.cons_append, lines_cons (by decide +kernel), List.append_assoc, List.cons_append,
      lines_cons (by decide +kernel), List.nil_append]
    rw [lines_rows (fun kv : Str × AttrVal => kv.1 ++ List.replicate (e.colwidth - kv.1.length) ' ' ++ ": ".toList ++ kv.2.repr)]
    · rfl
    · intro kv hkv
      simp only [List.mem_append, not_or]
      exact ⟨⟨⟨names kv hkv, fun h => absurd (List.eq_of_mem_replicate h) (by decide)⟩, by decide +kernel⟩, repr_noNewline _⟩

/-- C110: `repr(env)` writes a call of `Environment` with all attributes. -/
theorem C110_repr (e : Env) :
    ∃ vals, List.Forall₂ (fun r v => r.2 v) (rows e) vals ∧
      e.repr = "Environment(".toList ++ ", ".toList.intercalate (List.zipWith (fun r v => r.1 ++ '=' :: v) (rows e) vals) ++ [')'] := by
  refine ⟨_, (shown_rows e).2, ?_⟩
  rw [text_values e _ (fun k v => k ++ '=' :: v) (fun _ _ => rfl)]
  have key : ∀ l : List (Str × AttrVal), l ≠ [] → (l.flatMap fun kv => kv.1 ++ '=' :: kv.2.repr ++ ", ".toList) =
      ", ".toList.intercalate (l.map fun kv => kv.1 ++ '=' :: kv.2.repr) ++ ", ".toList := by
    intro l hl
    induction l with
    | nil => exact absurd rfl hl
    | cons a l ih =>
      cases l with
      | nil => simp [List.intercalate]
      | cons b l =>
        rw [List.flatMap_cons, ih (by simp)]
        show _ = ", ".toList.intercalate (_ :: _ :: _) ++ _
        rw [intercalate_two]
        simp
  have ne : e.shown ≠ [] := by rw [shown_eq]; simp
  unfold Env.repr
  rw [key _ ne]
  simp only [← List.append_assoc]
  rw [List.take_append_of_le_length (by simp), List.take_of_length_le (by simp)]

/-- C110: environments with numbers of at most four digits and arrays of at most four entries can be told apart by what is printed. -/
theorem C110_identifies_partial (e e' : Env) (h : Brief e) (h' : Brief e') (hx : ∀ kv ∈ openExtras e, '\n' ∉ kv.1 ∧ ' ' ∉ kv.1)
    (hx' : ∀ kv ∈ openExtras e', '\n' ∉ kv.1 ∧ ' ' ∉ kv.1) (hs : e.str = e'.str) :
    { e with extras := openExtras e } = { e' with extras := openExtras e' } := by
  obtain ⟨w, vs, hv, hw, -, hl⟩ := C110_str e fun kv hkv => (hx kv hkv).1
  obtain ⟨w', vs', hv', hw', -, hl'⟩ := C110_str e' fun kv hkv => (hx' kv hkv).1
  rw [hs, hl'] at hl
  simp only [List.cons_append, List.cons.injEq, true_and] at hl
  have spaces : ∀ (e : Env), (∀ kv ∈ openExtras e, '\n' ∉ kv.1 ∧ ' ' ∉ kv.1) → ∀ r ∈ rows e, ' ' ∉ r.1 := by
    intro e hx r hr
    rw [rows, List.mem_append] at hr
    rcases hr with hr | hr
    · have : ∀ k ∈ ["name".toList, "t".toList, "t0".toList, "t1".toList, "num_t".toList, "dt".toList, "samplerate".toList,
          "bitrate".toList, "bitlength".toList, "wl".toList, "wl0".toList, "wl1".toList, "num_wl".toList, "dwl".toList, "f".toList,
          "f0".toList, "f1".toList, "num_f".toList, "df".toList, "c".toList, "freqdomain".toList, "grad".toList], ' ' ∉ k := by
        decide +kernel
      apply this
      have := List.mem_map_of_mem (f := fun r => r.1) hr
      simpa only [List.map_cons, List.map_nil] using this
    · obtain ⟨x, hx', rfl⟩ := List.mem_map.mp hr
      exact (hx x hx').2
  obtain ⟨hk, rfl⟩ := zip_inj hv hv' (fun r hr => ⟨spaces e hx r hr, hw r hr⟩) (fun r hr => ⟨spaces e' hx' r hr, hw' r hr⟩)
    (List.append_cancel_right hl).symm
  clear hl hl' hw hw' spaces
  obtain ⟨s1, s2, s3, s4, s5, s6⟩ := h
  obtain ⟨s1', s2', s3', s4', s5', s6'⟩ := h'
  simp only [rows, List.cons_append, List.nil_append, List.map_cons, List.cons.injEq, true_and] at hk hv hv'
  rcases hv with _ | ⟨a1, hv⟩
  rcases hv with _ | ⟨a2, hv⟩
  rcases hv with _ | ⟨a3, hv⟩
  rcases hv with _ | ⟨a4, hv⟩
  rcases hv with _ | ⟨a5, hv⟩
  rcases hv with _ | ⟨a6, hv⟩
  rcases hv with _ | ⟨a7, hv⟩
  rcases hv with _ | ⟨a8, hv⟩
  rcases hv with _ | ⟨a9, hv⟩
  rcases hv with _ | ⟨a10, hv⟩
  rcases hv with _ | ⟨a11, hv⟩
  rcases hv with _ | ⟨a12, hv⟩
  rcases hv with _ | ⟨a13, hv⟩
  rcases hv with _ | ⟨a14, hv⟩
  rcases hv with _ | ⟨a15, hv⟩
  rcases hv with _ | ⟨a16, hv⟩
  rcases hv with _ | ⟨a17, hv⟩
  rcases hv with _ | ⟨a18, hv⟩
  rcases hv with _ | ⟨a19, hv⟩
  rcases hv with _ | ⟨a20, hv⟩
  rcases hv with _ | ⟨a21, hv⟩
  rcases hv with _ | ⟨a22, hv⟩
  simp only [List.forall₂_cons] at hv'
  obtain ⟨b1, b2, b3, b4, b5, b6, b7, b8, b9, b10, b11, b12, b13, b14, b15, b16, b17, b18, b19, b20, b21, b22, hv'⟩ := hv'
  have ex : openExtras e = openExtras e' := extras_inj hv hv' (by rw [List.map_map, List.map_map] at hk; exact hk) s3 s3'
  have arr : ∀ {l : List ℚ}, l = e.t ∨ l = e.wl ∨ l = e.f → ∀ x ∈ l, Short x := by
    rintro l (rfl | rfl | rfl) x hx <;> exact s1 x (by simp [hx])
  have arr' : ∀ {l : List ℚ}, l = e'.t ∨ l = e'.wl ∨ l = e'.f → ∀ x ∈ l, Short x := by
    rintro l (rfl | rfl | rfl) x hx <;> exact s1' x (by simp [hx])
  have c1 := quotedText_inj a1 b1
  have c2 := arrayText_inj a2 b2 (arr (.inl rfl)) (arr' (.inl rfl)) s4 s4'
  have c3 := numberText_inj a3 b3 (s1 _ (by simp)) (s1' _ (by simp))
  have c4 := optText_inj a4 b4 (s2 _ (by simp)) (s2' _ (by simp))
  have c5 := a5.2.2.symm.trans b5.2.2
  have c6 := optText_inj a6 b6 (s2 _ (by simp)) (s2' _ (by simp))
  have c7 := optText_inj a7 b7 (s2 _ (by simp)) (s2' _ (by simp))
  have c8 := optText_inj a8 b8 (s2 _ (by simp)) (s2' _ (by simp))
  have c9 := optText_inj a9 b9 (s2 _ (by simp)) (s2' _ (by simp))
  have c10 := arrayText_inj a10 b10 (arr (.inr (.inl rfl))) (arr' (.inr (.inl rfl))) s5 s5'
  have c11 := numberText_inj a11 b11 (s1 _ (by simp)) (s1' _ (by simp))
  have c12 := optText_inj a12 b12 (s2 _ (by simp)) (s2' _ (by simp))
  have c13 := a13.2.2.symm.trans b13.2.2
  have c14 := optText_inj a14 b14 (s2 _ (by simp)) (s2' _ (by simp))
  have c15 := arrayText_inj a15 b15 (arr (.inr (.inr rfl))) (arr' (.inr (.inr rfl))) s6 s6'
  have c16 := numberText_inj a16 b16 (s1 _ (by simp)) (s1' _ (by simp))
  have c17 := optText_inj a17 b17 (s2 _ (by simp)) (s2' _ (by simp))
  have c18 := a18.2.2.symm.trans b18.2.2
  have c19 := optText_inj a19 b19 (s2 _ (by simp)) (s2' _ (by simp))
  have c20 := numberText_inj a20 b20 (s1 _ (by simp)) (s1' _ (by simp))
  have c21 := flagText_inj a21 b21
  have c22 := flagText_inj a22 b22
  simp only [Env.mk.injEq]
  exact ⟨c1, c2, c3, c4, c5, c6, c7, c8, c9, c10, c11, c12, c13, c14, c15, c16, c17, c18, c19, c20, c21, c22, ex⟩

/-- C110 fails in general: environments at wavelengths that differ by 10 pm are printed alike in all three ways. -/
theorem C110_violation : ∃ e e', Env.make {} = .ok e ∧ Env.make { wl := some (.given (.scalar (155001 / 10 ^ 11))) } = .ok e' ∧
    e.pyEq e' = false ∧ e.repr = e'.repr ∧ e.str = e'.str ∧ e.html = e'.html := by
  have key : okAnd (Env.make {}) (fun e => okAnd (Env.make { wl := some (.given (.scalar (155001 / 10 ^ 11))) }) fun e' =>
      !e.pyEq e' && decide (e.repr = e'.repr ∧ e.str = e'.str ∧ e.html = e'.html)) = true := by decide +kernel
  obtain ⟨e, he, hk⟩ := okAnd_iff.mp key
  obtain ⟨e', he', hk⟩ := okAnd_iff.mp hk
  simp only [Bool.and_eq_true, Bool.not_eq_true', decide_eq_true_eq] at hk
  exact ⟨e, e', he, he', hk.1, hk.2⟩

/-- C110 fails: the call that `repr(env)` writes is never accepted, whatever the values, as it gives both `t` and `t0`. -/
theorem C110_eval_violation (a : Args) (ht : ∃ v, a.t = .given v) (h0 : ∃ v, a.t0 = .given v) (hc : ∃ v, a.c = .given v) :
    Env.init a = .error .valueError := by
  obtain ⟨v, ht⟩ := ht
  obtain ⟨v0, h0⟩ := h0
  obtain ⟨vc, hc⟩ := hc
  have : checkArgs a = .error .valueError := by
    unfold checkArgs
    split
    · rfl
    · rw [if_pos (by rw [ht, h0]; rfl)]
  unfold Env.init
  rw [this, hc]
  rfl

theorem occurrences_skip {a s : Str} (h : '<' ∉ a) : occurrences "<tr>".toList (a ++ s) = occurrences "<tr>".toList s := by
  have lit : "<tr>".toList = ['<', 't', 'r', '>'] := by decide
  rw [lit]
  induction a with
  | nil => rfl
  | cons c a ih =>
    simp only [List.mem_cons, not_or] at h
    rw [List.cons_append, occurrences, ih h.2, if_neg (by simp [List.isPrefixOf, h.1]), zero_add]

theorem str_noTag {v : AttrVal} (h : ∀ s, v = .text s → '<' ∉ s) : '<' ∉ v.str := by
  have num : ∀ x, '<' ∉ sciStr x := fun x => (numberText_plain (sciStr_spec x)).2.2.2
  cases v with
  | text s => exact h s rfl
  | num x => exact num x
  | count n =>
    intro hc
    have := (List.all_eq_true.mp (natStr_digits n)) _ hc
    revert this; decide
  | flag b => cases b <;> decide
  | nothing => decide
  | array l =>
    show '<' ∉ arrStr l
    have inter : ∀ ts : List Str, (∀ t ∈ ts, '<' ∉ t) → '<' ∉ [','].intercalate ts := by
      intro ts
      induction ts with
      | nil => intro _; simp [List.intercalate]
      | cons a l ih =>
        intro h
        cases l with
        | nil => simpa [List.intercalate] using h
        | cons b l =>
          have : [','].intercalate (a :: b :: l) = a ++ ',' :: [','].intercalate (b :: l) := by
            simp [List.intercalate, List.intersperse]
          rw [this]
          simp only [List.mem_append, List.mem_cons, not_or]
          exact ⟨h a (by simp), by decide, ih fun t ht => h t (List.mem_cons_of_mem _ ht)⟩
    unfold arrStr
    split_ifs
    · simp only [List.mem_append, not_or]
      exact ⟨⟨⟨⟨⟨⟨by decide, num _⟩, by decide⟩, num _⟩, by decide⟩, num _⟩, by decide⟩
    · simp only [List.mem_append, not_or]
      refine ⟨⟨by decide, inter _ fun t ht => ?_⟩, by decide⟩
      obtain ⟨x, -, rfl⟩ := List.mem_map.mp ht
      exact num x
    · exact num _

theorem descriptions_noTag (k : Str) : '<' ∉ (dictGet k descriptions).getD [] := by
  have all : ∀ kv ∈ descriptions, '<' ∉ kv.2 := by decide +kernel
  generalize descriptions = d at all
  induction d with
  | nil => simp [dictGet]
  | cons a d ih =>
    rw [dictGet]
    split
    · exact all a (by simp)
    · exact ih fun kv hkv => all kv (List.mem_cons_of_mem _ hkv)

/-- C110: the html table consists of a heading and one row per attribute, in order: its name, its value and, for the attributes that all
environments have, a description that depends on the name only. -/
theorem C110_html : ∃ desc : List Char → List Char, (∀ k ∈ commonNames, desc k ≠ [] ∧ desc k ≠ k) ∧
    (∀ k ∈ commonNames, ∀ k' ∈ commonNames, desc k = desc k' → k = k') ∧ ∀ e : Env, ∃ vals, List.Forall₂ (fun r v => r.2 v) (cells e) vals ∧
      e.html =
        "<div>\n<table>\n<thead>\n<tr>\n<th>key</th>\n<th>value</th>\n<th>description</th>\n</tr>\n</thead>\n<tbody>\n".toList ++
        (List.zipWith (fun r v => "<tr><th>".toList ++ r.1 ++ "</th><td>".toList ++ v ++ "</td><td>".toList ++ desc r.1 ++
          "</td></tr>\n".toList) (cells e) vals).flatten ++ "</tbody>\n</table>\n</div>".toList := by
  refine ⟨fun k => (dictGet k descriptions).getD [], by decide +kernel, by decide +kernel, fun e => ⟨_, (shown_cells e).2, ?_⟩⟩
  unfold Env.html
  congr 2
  have key : ∀ (l : List (Str × AttrVal)) (c : List (Str × (Str → Prop))), l.map (fun kv => kv.1) = c.map (fun r => r.1) →
      (l.flatMap fun kv => "<tr><th>".toList ++ kv.1 ++ "</th><td>".toList ++ kv.2.str ++ "</td><td>".toList ++
        (dictGet kv.1 descriptions).getD [] ++ "</td></tr>\n".toList) =
      (List.zipWith (fun r v => "<tr><th>".toList ++ r.1 ++ "</th><td>".toList ++ v ++ "</td><td>".toList ++
        (dictGet r.1 descriptions).getD [] ++ "</td></tr>\n".toList) c (l.map fun kv => kv.2.str)).flatten := by
    intro l
    induction l with
    | nil => intro c _; simp
    | cons kv l ih =>
      intro c h
      cases c with
      | nil => simp at h
      | cons r c =>
        simp only [List.map_cons, List.cons.injEq] at h
        rw [List.flatMap_cons, List.map_cons, List.zipWith_cons_cons, List.flatten_cons, ih c h.2, h.1]
  exact key _ _ (shown_cells e).1

/-- C110: the html table has a heading and one row per attribute, provided that neither the name of the environment nor those of extra
attributes contain html. -/
theorem C110_html_partial (e : Env) (hn : '<' ∉ e.name) (hx : ∀ kv ∈ openExtras e, '<' ∉ kv.1) :
    occurrences "<tr>".toList e.html = 1 + (rows e).length := by
  have row : ∀ (k v d s : Str), '<' ∉ k → '<' ∉ v → '<' ∉ d →
      occurrences "<tr>".toList ("<tr><th>".toList ++ k ++ "</th><td>".toList ++ v ++ "</td><td>".toList ++ d ++ "</td></tr>\n".toList ++ s) =
        1 + occurrences "<tr>".toList s := by
    intro k v d s hk hv hd
    have l1 : "<tr><th>".toList = ['<', 't', 'r', '>', '<', 't', 'h', '>'] := by decide +kernel
    have l2 : "</th><td>".toList = ['<', '/', 't', 'h', '>', '<', 't', 'd', '>'] := by decide +kernel
    have l3 : "</td><td>".toList = ['<', '/', 't', 'd', '>', '<', 't', 'd', '>'] := by decide +kernel
    have l4 : "</td></tr>\n".toList = ['<', '/', 't', 'd', '>', '<', '/', 't', 'r', '>', '\n'] := by decide +kernel
    have l0 : "<tr>".toList = ['<', 't', 'r', '>'] := by decide +kernel
    have sk := fun (a : Str) (h : '<' ∉ a) (s : Str) => occurrences_skip (s := s) h
    rw [l0] at sk
    rw [l0, l1, l2, l3, l4]
    simp only [List.append_assoc, List.cons_append, List.nil_append, occurrences, List.isPrefixOf, sk k hk, sk v hv, sk d hd]
    simp
  have names : ∀ kv ∈ e.shown, '<' ∉ kv.1 ∧ ∀ s, kv.2 = .text s → '<' ∉ s := by
    intro kv hkv
    rw [shown_eq, List.mem_append] at hkv
    rcases hkv with hkv | hkv
    · constructor
      · have : ∀ k ∈ ["name".toList, "t".toList, "t0".toList, "t1".toList, "num_t".toList, "dt".toList, "samplerate".toList,
            "bitrate".toList, "bitlength".toList, "wl".toList, "wl0".toList, "wl1".toList, "num_wl".toList, "dwl".toList, "f".toList,
            "f0".toList, "f1".toList, "num_f".toList, "df".toList, "c".toList, "freqdomain".toList, "grad".toList], '<' ∉ k := by
          decide +kernel
        apply this
        have := List.mem_map_of_mem (f := fun kv => kv.1) hkv
        simpa only [List.map_cons, List.map_nil] using this
      · have opt : ∀ o s, AttrVal.opt o ≠ .text s := by intro o s h; cases o <;> cases h
        intro s hs
        have := List.mem_map_of_mem (f := fun kv => kv.2) hkv
        simp only [List.map_cons, List.map_nil, hs, List.mem_cons, List.not_mem_nil, or_false, AttrVal.text.injEq, reduceCtorEq,
          false_or, Ne.symm (opt _ _)] at this
        rw [this]
        exact hn
    · obtain ⟨x, hx', rfl⟩ := List.mem_map.mp hkv
      exact ⟨hx x hx', fun s hs => by cases hs⟩
  have body : ∀ (l : List (Str × AttrVal)) (s : Str), (∀ kv ∈ l, '<' ∉ kv.1 ∧ ∀ s, kv.2 = .text s → '<' ∉ s) →
      occurrences "<tr>".toList ((l.flatMap fun kv => "<tr><th>".toList ++ kv.1 ++ "</th><td>".toList ++ kv.2.str ++ "</td><td>".toList ++
        (dictGet kv.1 descriptions).getD [] ++ "</td></tr>\n".toList) ++ s) = l.length + occurrences "<tr>".toList s := by
    intro l s
    induction l with
    | nil => intro _; simp
    | cons kv l ih =>
      intro h
      obtain ⟨h1, h2⟩ := h kv (by simp)
      rw [List.flatMap_cons, List.append_assoc, row _ _ _ _ h1 (str_noTag h2) (descriptions_noTag _),
        ih fun x hx => h x (List.mem_cons_of_mem _ hx), List.length_cons]
      ring
  have start : ∀ s : Str, occurrences "<tr>".toList
      ("<div>\n<table>\n<thead>\n<tr>\n<th>key</th>\n<th>value</th>\n<th>description</th>\n</tr>\n</thead>\n<tbody>\n".toList ++ s) =
      1 + occurrences "<tr>".toList s := by
    intro s
    simp [occurrences, List.isPrefixOf]
  have len : e.shown.length = (rows e).length := by
    have := congrArg List.length (shown_rows e).1
    simpa using this
  unfold Env.html
  rw [List.append_assoc, start, body _ _ names, len]
  have : occurrences "<tr>".toList "</tbody>\n</table>\n</div>".toList = 0 := by decide +kernel
  rw [this]
  omega

/-- C110 fails: the name is not escaped in the html table, so that an environment can add rows to it. -/
theorem C110_html_violation : ∃ e, Env.make { name := some "<tr>".toList } = .ok e ∧
    occurrences "<tr>".toList e.html ≠ 1 + (rows e).length := by
  have key : okAnd (Env.make { name := some "<tr>".toList }) (fun e => decide (occurrences "<tr>".toList e.html = 24 ∧
      e.extras = [])) = true := by decide +kernel
  obtain ⟨e, he, hk⟩ := okAnd_iff.mp key
  simp only [decide_eq_true_eq] at hk
  refine ⟨e, he, ?_⟩
  rw [hk.1]
  simp [rows, openExtras, hk.2]

/-! ## Examples of use -/

/-- The first lines of the printed default environment. -/
example : ∃ e, Env.make {} = .ok e ∧ (lines e.str).take 5 =
    ["Simulation Environment:".toList, "-----------------------".toList, "name       : 'env'".toList,
     "t          : array([0.000e+00, 1.000e-14, ..., 9.900e-13])".toList, "t0         : 0.000e+00".toList] ∧
    (lines e.str).length = 25 := by
  have key : okAnd (Env.make {}) (fun e => decide ((lines e.str).take 5 =
    ["Simulation Environment:".toList, "-----------------------".toList, "name       : 'env'".toList,
     "t          : array([0.000e+00, 1.000e-14, ..., 9.900e-13])".toList, "t0         : 0.000e+00".toList] ∧
    (lines e.str).length = 25)) = true := by decide +kernel
  obtain ⟨e, he, hk⟩ := okAnd_iff.mp key
  exact ⟨e, he, of_decide_eq_true hk⟩

/-- Beside `wl` the line break of a name is escaped, so that there is one line more per extra attribute only. -/
example : ∃ e, Env.make { name := some "a\nb".toList, extras := [("power".toList, 1 / 3)] } = .ok e ∧ (lines e.str).length = 26 := by
  have key : okAnd (Env.make { name := some "a\nb".toList, extras := [("power".toList, 1 / 3)] }) (fun e =>
    decide (e.extras = [("power".toList, 1 / 3)])) = true := by decide +kernel
  obtain ⟨e, he, hk⟩ := okAnd_iff.mp key
  have hx : openExtras e = [("power".toList, 1 / 3)] := by rw [openExtras, of_decide_eq_true hk]; decide +kernel
  obtain ⟨w, vals, hv, -, -, hl⟩ := C110_str e (by rw [hx]; decide +kernel)
  refine ⟨e, he, ?_⟩
  rw [hl]
  simp [List.length_zipWith, ← hv.length_eq, rows, hx]

/-- The call written by `repr`. -/
example : ∃ e, Env.make { t := some (.given (.vec [0, 1])), name := some "it's".toList } = .ok e ∧
    e.repr.take 80 = "Environment(name=\"it's\", t=array([0.000e+00, 1.000e+00]), t0=0.000e+00, t1=2.000".toList ∧
    ∃ s, e.repr = s ++ [')'] := by
  have key : okAnd (Env.make { t := some (.given (.vec [0, 1])), name := some "it's".toList }) (fun e => decide (
    e.repr.take 80 = "Environment(name=\"it's\", t=array([0.000e+00, 1.000e+00]), t0=0.000e+00, t1=2.000".toList)) = true := by
    decide +kernel
  obtain ⟨e, he, hk⟩ := okAnd_iff.mp key
  obtain ⟨vals, -, h⟩ := C110_repr e
  exact ⟨e, he, of_decide_eq_true hk, _, h⟩

/-- Numbers: rounded to four digits, with a carry into the exponent. -/
example : sciStr (155001 / 10 ^ 11) = "1.550e-06".toList ∧ sciStr (-99996) = "-1.000e+05".toList ∧
    sciStr (12345 / 10 ^ 120) = "1.234e-116".toList ∧ sciStr (12355 / 10 ^ 120) = "1.236e-116".toList := by decide +kernel

/-- An environment all of whose numbers are short, at 1.5 µm with light at 300000 km/s. -/
def briefArgs (wl : ℚ) : Overrides :=
  { t := some (.given (.vec [0, 1 / 10 ^ 12, 2 / 10 ^ 12])), wl := some (.given (.scalar wl)), c := some (.given 300000000) }

theorem short_of {x : ℚ} (m e : ℤ) (h : |m| < 10 ^ 4) (hx : x = m * 10 ^ e) : Short x := ⟨m, e, h, hx⟩

/-- Two such environments are told apart by their printed forms. -/
example : ∃ e e', Env.make (briefArgs (15 / 10 ^ 7)) = .ok e ∧ Env.make (briefArgs (16 / 10 ^ 7)) = .ok e' ∧ e.str ≠ e'.str := by
  have key : okAnd (Env.make (briefArgs (15 / 10 ^ 7))) (fun e => okAnd (Env.make (briefArgs (16 / 10 ^ 7))) fun e' =>
    decide (e = ⟨"env".toList, [0, 1 / 10 ^ 12, 2 / 10 ^ 12], 0, some (3 / 10 ^ 12), 3, some (1 / 10 ^ 12), some (10 ^ 12), none, none,
        [15 / 10 ^ 7], 15 / 10 ^ 7, none, 1, none, [2 * 10 ^ 14], 2 * 10 ^ 14, none, 1, none, 300000000, false, false, []⟩ ∧
      e' = ⟨"env".toList, [0, 1 / 10 ^ 12, 2 / 10 ^ 12], 0, some (3 / 10 ^ 12), 3, some (1 / 10 ^ 12), some (10 ^ 12), none, none,
        [16 / 10 ^ 7], 16 / 10 ^ 7, none, 1, none, [1875 * 10 ^ 11], 1875 * 10 ^ 11, none, 1, none, 300000000, false, false, []⟩)) = true := by
    decide +kernel
  obtain ⟨e, he, hk⟩ := okAnd_iff.mp key
  obtain ⟨e', he', hk⟩ := okAnd_iff.mp hk
  obtain ⟨h1, h2⟩ := of_decide_eq_true hk
  refine ⟨e, e', he, he', fun hs => ?_⟩
  have s0 : Short 0 := short_of 0 0 (by norm_num) (by norm_num)
  have s1 : Short (1 / 10 ^ 12) := short_of 1 (-12) (by norm_num) (by norm_num)
  have s2 : Short (2 / 10 ^ 12) := short_of 2 (-12) (by norm_num) (by norm_num)
  have s3 : Short (3 / 10 ^ 12) := short_of 3 (-12) (by norm_num) (by norm_num)
  have s4 : Short (10 ^ 12) := short_of 1 12 (by norm_num) (by norm_num)
  have s5 : Short (15 / 10 ^ 7) := short_of 15 (-7) (by norm_num) (by norm_num)
  have s6 : Short (16 / 10 ^ 7) := short_of 16 (-7) (by norm_num) (by norm_num)
  have s7 : Short (2 * 10 ^ 14) := short_of 2 14 (by norm_num) (by norm_num)
  have s8 : Short (1875 * 10 ^ 11) := short_of 1875 11 (by norm_num) (by norm_num)
  have s9 : Short 300000000 := short_of 3 8 (by norm_num) (by norm_num)
  have hE : Brief e ∧ openExtras e = [] := by
    subst h1
    refine ⟨⟨?_, ?_, ?_, by decide, by decide, by decide⟩, rfl⟩
    · simp only [List.cons_append, List.nil_append, List.forall_mem_cons]
      exact ⟨s0, s5, s7, s9, s0, s1, s2, s5, s7, by simp⟩
    · simp only [List.forall_mem_cons, Option.mem_def, Option.some.injEq, forall_eq', reduceCtorEq, false_implies, implies_true, true_and]
      exact ⟨s3, s1, s4, by simp⟩
    · simp [openExtras]
  have hE' : Brief e' ∧ openExtras e' = [] := by
    subst h2
    refine ⟨⟨?_, ?_, ?_, by decide, by decide, by decide⟩, rfl⟩
    · simp only [List.cons_append, List.nil_append, List.forall_mem_cons]
      exact ⟨s0, s6, s8, s9, s0, s1, s2, s6, s8, by simp⟩
    · simp only [List.forall_mem_cons, Option.mem_def, Option.some.injEq, forall_eq', reduceCtorEq, false_implies, implies_true, true_and]
      exact ⟨s3, s1, s4, by simp⟩
    · simp [openExtras]
  have := C110_identifies_partial e e' hE.1 hE'.1 (by simp [hE.2]) (by simp [hE'.2]) hs
  have hw := congrArg Env.wl0 this
  rw [h1, h2] at hw
  norm_num at hw

example : ∃ e, Env.make {} = .ok e ∧ occurrences "<tr>".toList e.html = 23 := by
  have key : okAnd (Env.make {}) (fun e => decide (e.name = "env".toList ∧ e.extras = [])) = true := by decide +kernel
  obtain ⟨e, he, hk⟩ := okAnd_iff.mp key
  obtain ⟨h1, h2⟩ := of_decide_eq_true hk
  refine ⟨e, he, ?_⟩
  rw [C110_html_partial e (by rw [h1]; decide +kernel) (by simp [openExtras, h2])]
  simp [rows, openExtras, h2]

/-- The html table shows a single wavelength as a number. -/
example : ∃ e, Env.make {} = .ok e ∧ e.wl = [155 / 10 ^ 8] ∧ ∃ vals : List (List Char), ∃ s v y : List Char,
    vals.length = 22 ∧ readSci v = some (155 / 10 ^ 8) ∧ vals[9]? = some v ∧ e.html = s ++ "<tr><th>wl</th><td>".toList ++ v ++ "</td><td>".toList ++ y := by
  have key : okAnd (Env.make {}) (fun e => decide (e.wl = [155 / 10 ^ 8] ∧ e.extras = [])) = true := by decide +kernel
  obtain ⟨e, he, hk⟩ := okAnd_iff.mp key
  obtain ⟨h1, h2⟩ := of_decide_eq_true hk
  obtain ⟨desc, -, -, h⟩ := C110_html
  obtain ⟨vals, hv, hs⟩ := h e
  have hv' := hv
  rw [cells] at hv'
  have h9 := hv'.get (i := 9) (by simp) (by rw [← hv'.length_eq]; simp)
  have hlen := hv'.length_eq
  simp only [List.get_eq_getElem] at h9
  have h9' := (h9.1 (155 / 10 ^ 8) h1)
  obtain ⟨y, hy, -, hy'⟩ := h9'
  rw [hy' ⟨155, -8, by norm_num, by norm_num⟩] at hy
  have hl : vals.length = 22 := by rw [← hlen]; simp [openExtras, h2]
  have key : ∀ (H T : List Char) (A : List (List Char)) (k v d : List Char) (B : List (List Char)),
      H ++ (A ++ ("<tr><th>".toList ++ k ++ "</th><td>".toList ++ v ++ "</td><td>".toList ++ d ++ "</td></tr>\n".toList) :: B).flatten ++ T =
        (H ++ A.flatten) ++ ("<tr><th>".toList ++ k ++ "</th><td>".toList) ++ v ++ "</td><td>".toList ++
          (d ++ "</td></tr>\n".toList ++ B.flatten ++ T) := by
    intro H T A k v d B
    simp only [List.flatten_append, List.flatten_cons, List.append_assoc]
  have hc : cells e = (cells e).take 9 ++ ("wl".toList, ArrayCell e.wl) :: (cells e).drop 10 := by simp [cells]
  have hw : vals = vals.take 9 ++ vals[9]'(by omega) :: vals.drop 10 := by
    rw [← List.drop_eq_getElem_cons (by omega), List.take_append_drop]
  rw [hc] at hs
  generalize hx : vals[9]'(by omega) = x at *
  rw [hw, List.zipWith_append (by simp [cells, hl]), List.zipWith_cons_cons, key] at hs
  have hpre : "<tr><th>".toList ++ "wl".toList ++ "</th><td>".toList = "<tr><th>wl</th><td>".toList := by decide +kernel
  rw [hpre] at hs
  exact ⟨e, he, h1, vals, _, x, _, hl, hy, by rw [← hx]; simp, hs⟩

example : Env.init { defaultArgs with t := .given (.vec [0, 1]), t0 := .given 0, c := .given 299792458 } = .error .valueError :=
  C110_eval_violation _ ⟨_, rfl⟩ ⟨_, rfl⟩ ⟨_, rfl⟩

end PT
