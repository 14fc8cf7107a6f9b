import Verif.Lemmas.Geofeeds
import Verif.Lemmas.Announce
import Verif.Lemmas.Import
/-
Lemmas for C78: what is read of the geofeeds; and for C79.
-/
namespace Loc
open Spec Props

theorem sqlPick_all {α : Type} {l : List α} {x : α} (h : x ∈ l) : ∃ c, sqlPick c l = some x := by
  obtain ⟨i, hi, rfl⟩ := List.mem_iff_getElem.mp h
  refine ⟨i, ?_⟩
  unfold sqlPick
  rw [Nat.mod_eq_of_lt hi, List.getElem?_eq_getElem hi]

theorem mem_distinctOn {c : Network → Nat} {rows : List (Network × CStr)} {ns : List Network} {n : Network} {cc : Option CStr} :
    (n, cc) ∈ distinctOn c rows ns ↔ n ∈ ns ∧ ∃ x, sqlPick (c n) (rows.filter fun x => decide (x.1 = n)) = some x ∧ cc = some x.2 := by
  induction ns with
  | nil => exact ⟨fun h => (by cases h), fun h => (by cases h.1)⟩
  | cons m ns ih =>
    have hu : distinctOn c rows (m :: ns) = match sqlPick (c m) (rows.filter fun x => decide (x.1 = m)) with
      | none => distinctOn c rows ns
      | some x => (m, some x.2) :: distinctOn c rows ns := rfl
    rw [hu]
    cases hp : sqlPick (c m) (rows.filter fun x => decide (x.1 = m)) with
    | none =>
      simp only
      rw [ih]
      constructor
      · exact fun ⟨h1, h2⟩ => ⟨List.mem_cons_of_mem _ h1, h2⟩
      · rintro ⟨h1, x, h2, h3⟩
        rcases List.mem_cons.mp h1 with rfl | h1
        · rw [hp] at h2
          cases h2
        · exact ⟨h1, x, h2, h3⟩
    | some y =>
      simp only
      rw [List.mem_cons, ih]
      constructor
      · rintro (h | ⟨h1, h2⟩)
        · cases h
          exact ⟨List.mem_cons_self, y, hp, rfl⟩
        · exact ⟨List.mem_cons_of_mem _ h1, h2⟩
      · rintro ⟨h1, x, h2, h3⟩
        rcases List.mem_cons.mp h1 with rfl | h1
        · rw [hp] at h2
          cases h2
          exact .inl (by rw [h3])
        · exact .inr ⟨h1, x, h2, h3⟩

theorem distinctOn_keys (c : Network → Nat) (rows : List (Network × CStr)) (ns : List Network) :
    ((distinctOn c rows ns).map (·.1)).Sublist ns := by
  induction ns with
  | nil => exact List.Sublist.refl _
  | cons m ns ih =>
    have hu : distinctOn c rows (m :: ns) = match sqlPick (c m) (rows.filter fun x => decide (x.1 = m)) with
      | none => distinctOn c rows ns
      | some x => (m, some x.2) :: distinctOn c rows ns := rfl
    rw [hu]
    cases sqlPick (c m) (rows.filter fun x => decide (x.1 = m)) with
    | none => exact ih.cons _
    | some y => exact ih.cons₂ _

theorem nodup_eraseDups {α : Type} [DecidableEq α] (l : List α) : l.eraseDups.Nodup := by
  obtain ⟨k, hk⟩ : ∃ k, l.length ≤ k := ⟨_, Nat.le_refl _⟩
  induction k generalizing l with
  | zero =>
    rw [List.length_eq_zero_iff.mp (Nat.le_zero.mp hk)]
    exact List.nodup_nil
  | succ k ih =>
    cases l with
    | nil => exact List.nodup_nil
    | cons a l =>
      rw [List.eraseDups_cons, List.nodup_cons]
      refine ⟨fun h => ?_, ih _ (Nat.le_trans (List.length_filter_le _ _) (Nat.le_of_succ_le_succ hk))⟩
      rw [List.mem_eraseDups, List.mem_filter] at h
      simp at h

theorem mem_usedGeofeeds {c : Network → Nat} {t : GeoTables} {n : Network} {cc : Option CStr} : (n, cc) ∈ usedGeofeeds c t ↔
    ∃ x, sqlPick (c n) ((joinGeofeeds t).filter fun x => decide (x.1 = n)) = some x ∧ cc = some x.2 := by
  unfold usedGeofeeds
  rw [mem_distinctOn, List.mem_eraseDups]
  refine ⟨fun h => h.2, fun h => ⟨?_, h⟩⟩
  obtain ⟨x, hx, -⟩ := h
  unfold sqlPick at hx
  have := List.mem_filter.mp (List.mem_of_getElem? hx)
  exact List.mem_map.mpr ⟨x, this.1, of_decide_eq_true this.2⟩

theorem mem_feedRows {t : GeoTables} {url : CStr} {r : GeoRow} : r ∈ feedRows t url ↔ ∃ id f, (id, f) ∈ t.feeds ∧ f.url = url ∧ (id, r) ∈ t.rows := by
  unfold feedRows
  simp only [List.mem_map, List.mem_filter, List.any_eq_true, decide_eq_true_eq]
  constructor
  · rintro ⟨x, ⟨hx, y, hy, h1, h2⟩, rfl⟩
    exact ⟨y.1, y.2, hy, h2, by rw [h1]; exact hx⟩
  · rintro ⟨id, f, h1, h2, h3⟩
    exact ⟨_, ⟨h3, _, h1, rfl, h2⟩, rfl⟩

theorem sqlContains_iff' {n b : Network} (hn : Block n) (hb : Block b) : sqlContains b n = true ↔ b.family = n.family ∧ Inside n b := by
  unfold sqlContains
  rw [Bool.and_eq_true, decide_eq_true_iff, is_subnet_iff hb hn]

theorem mem_joinGeofeeds {t : GeoTables} (hl : ∀ l ∈ t.links, Block l.1) (hr : ∀ r ∈ t.rows, Block r.2.network) {n : Network} {cc : CStr} :
    (n, cc) ∈ joinGeofeeds t ↔ ∃ url r, r ∈ feedRows t url ∧ MaySpeak t url n ∧ r.network = n ∧ r.country = cc := by
  unfold joinGeofeeds
  simp only [List.mem_flatMap, List.mem_map, List.mem_filter, Bool.and_eq_true, decide_eq_true_eq]
  constructor
  · rintro ⟨f, hf, l, ⟨hl', h1⟩, r, ⟨hr', h2, h3⟩, h4⟩
    injection h4 with h4 h5
    rw [sqlContains_iff' (hr r hr') (hl l hl')] at h3
    refine ⟨f.2.url, r.2, mem_feedRows.mpr ⟨f.1, f.2, hf, rfl, by rw [h2]; exact hr'⟩, ⟨l.1, ?_, ?_⟩, h4, h5⟩
    · rw [h1]
      exact hl'
    · rw [← h4]
      exact h3
  · rintro ⟨url, r, hr', ⟨l, h1, h2, h3⟩, rfl, rfl⟩
    obtain ⟨id, f, h4, h5, h6⟩ := mem_feedRows.mp hr'
    exact ⟨_, h4, _, ⟨h1, h5⟩, _, ⟨h6, rfl, (sqlContains_iff' (hr _ h6) (hl _ h1)).mpr ⟨h2, h3⟩⟩, rfl⟩

theorem geoContents_row {e : GeoEnv} {f : Bytes} {rows : List GeoRow} (h : GeoContents e f rows) {r : GeoRow} (hr : r ∈ rows) :
    ∃ line, GeoSays e line r := by
  obtain ⟨lines, answers, -, rfl, h⟩ := h
  rw [List.mem_filterMap] at hr
  obtain ⟨a, ha, har⟩ := hr
  simp only [id] at har
  subst har
  induction h with
  | nil => cases ha
  | cons h _ ih =>
    rcases List.mem_cons.mp ha with ha | ha
    · exact ⟨_, (h r).mp ha.symm⟩
    · exact ih ha

/-! ## Countries -/

theorem whites_split {s w r : Bytes} : (∀ c ∈ w, White c) ∧ s = w ++ r ∧ (r = [] ∨ ∃ c, r.head? = some c ∧ ¬ White c) ↔
    w = s.takeWhile pySpace ∧ r = s.dropWhile pySpace := by
  constructor
  · rintro ⟨h1, rfl, h2⟩
    have h1' : ∀ c ∈ w, pySpace c = true := fun c hc => (pySpace_iff c).mpr (h1 c hc)
    rw [List.takeWhile_append_of_pos h1', List.dropWhile_append_of_pos h1']
    rcases h2 with rfl | ⟨c, h2, h3⟩
    · exact ⟨(List.append_nil _).symm, rfl⟩
    · cases r with
      | nil => cases h2
      | cons a r =>
        simp only [List.head?_cons, Option.some.injEq] at h2
        subst h2
        have hf : pySpace a = false := by
          rw [← Bool.not_eq_true, pySpace_iff]
          exact h3
        rw [List.takeWhile_cons_of_neg (by simp [hf]), List.dropWhile_cons_of_neg (by simp [hf])]
        exact ⟨(List.append_nil _).symm, rfl⟩
  · rintro ⟨rfl, rfl⟩
    refine ⟨fun c hc => (pySpace_iff c).mp (List.mem_takeWhile_imp hc), List.takeWhile_append_dropWhile.symm, ?_⟩
    cases hd : s.dropWhile pySpace with
    | nil => exact .inl rfl
    | cons a r =>
      refine .inr ⟨a, rfl, ?_⟩
      have := List.head?_dropWhile_not pySpace s
      rw [hd] at this
      simp only [List.head?_cons] at this
      rw [← pySpace_iff]
      simp [this]

theorem word_split {s w r : Bytes} : (∀ c ∈ w, ¬ White c) ∧ s = w ++ r ∧ (r = [] ∨ ∃ c, r.head? = some c ∧ White c) ↔
    w = s.takeWhile (!pySpace ·) ∧ r = s.dropWhile (!pySpace ·) := by
  have key : ∀ c, (!pySpace c) = true ↔ ¬ White c := fun c => by
    rw [Bool.not_eq_true', ← Bool.not_eq_true, pySpace_iff]
  constructor
  · rintro ⟨h1, rfl, h2⟩
    have h1' : ∀ c ∈ w, (!pySpace c) = true := fun c hc => (key c).mpr (h1 c hc)
    rw [List.takeWhile_append_of_pos h1', List.dropWhile_append_of_pos h1']
    rcases h2 with rfl | ⟨c, h2, h3⟩
    · exact ⟨(List.append_nil _).symm, rfl⟩
    · cases r with
      | nil => cases h2
      | cons a r =>
        simp only [List.head?_cons, Option.some.injEq] at h2
        subst h2
        have hf : ¬ (!pySpace a) = true := by
          rw [key]
          exact fun h => h h3
        rw [List.takeWhile_cons_of_neg (p := (!pySpace ·)) hf, List.dropWhile_cons_of_neg (p := (!pySpace ·)) hf]
        exact ⟨(List.append_nil _).symm, rfl⟩
  · rintro ⟨rfl, rfl⟩
    refine ⟨fun c hc => (key c).mp (List.mem_takeWhile_imp (p := (!pySpace ·)) hc), List.takeWhile_append_dropWhile.symm, ?_⟩
    cases hd : s.dropWhile (!pySpace ·) with
    | nil => exact .inl rfl
    | cons a r =>
      refine .inr ⟨a, rfl, ?_⟩
      have := List.head?_dropWhile_not (!pySpace ·) s
      rw [hd] at this
      simp only [List.head?_cons] at this
      rw [← pySpace_iff]
      simpa using this

/-- The three parts of the line. -/
def ThreeParts (s code continent name : Bytes) : Prop :=
  ∃ w1 w2 w3, s = w1 ++ code ++ w2 ++ continent ++ w3 ++ name ∧
    (∀ c ∈ w1 ++ w2 ++ w3, White c) ∧ w2 ≠ [] ∧ w3 ≠ [] ∧ code ≠ [] ∧ continent ≠ [] ∧
    (∀ c ∈ code ++ continent, ¬ White c) ∧ ∃ c, name.head? = some c ∧ ¬ White c

theorem gap_head {w r : Bytes} (h : w ≠ []) (hw : ∀ c ∈ w, White c) : ∃ c, (w ++ r).head? = some c ∧ White c := by
  cases w with
  | nil => exact absurd rfl h
  | cons a w => exact ⟨a, rfl, hw a List.mem_cons_self⟩

theorem word_head {w r : Bytes} (h : w ≠ []) (hw : ∀ c ∈ w, ¬ White c) : ∃ c, (w ++ r).head? = some c ∧ ¬ White c := by
  cases w with
  | nil => exact absurd rfl h
  | cons a w => exact ⟨a, rfl, hw a List.mem_cons_self⟩

theorem splitCountry_iff {s code continent name : Bytes} :
    splitCountry s = some (code, continent, name) ↔ ThreeParts s code continent name := by
  have hu : splitCountry s = if (cutWord (s.dropWhile pySpace)).1.isEmpty || (cutWord (cutWord (s.dropWhile pySpace)).2).1.isEmpty ||
      (cutWord (cutWord (s.dropWhile pySpace)).2).2.isEmpty then none
    else some ((cutWord (s.dropWhile pySpace)).1, (cutWord (cutWord (s.dropWhile pySpace)).2).1, (cutWord (cutWord (s.dropWhile pySpace)).2).2) := rfl
  rw [hu]
  unfold cutWord
  simp only
  -- one step after the other
  obtain ⟨a1, a2, a3⟩ := (whites_split (s := s)).mpr ⟨rfl, rfl⟩
  generalize s.takeWhile pySpace = w1 at a1 a2
  generalize hs1 : s.dropWhile pySpace = s1 at a2 a3
  obtain ⟨b1, b2, b3⟩ := (word_split (s := s1)).mpr ⟨rfl, rfl⟩
  generalize hc1 : s1.takeWhile (!pySpace ·) = c1 at b1 b2
  generalize hs2 : s1.dropWhile (!pySpace ·) = s2 at b2 b3
  obtain ⟨d1, d2, d3⟩ := (whites_split (s := s2)).mpr ⟨rfl, rfl⟩
  generalize hw2 : s2.takeWhile pySpace = w2 at d1 d2
  generalize hs3 : s2.dropWhile pySpace = s3 at d2 d3
  obtain ⟨e1, e2, e3⟩ := (word_split (s := s3)).mpr ⟨rfl, rfl⟩
  generalize hc2 : s3.takeWhile (!pySpace ·) = c2 at e1 e2
  generalize hs4 : s3.dropWhile (!pySpace ·) = s4 at e2 e3
  obtain ⟨f1, f2, f3⟩ := (whites_split (s := s4)).mpr ⟨rfl, rfl⟩
  generalize hw3 : s4.takeWhile pySpace = w3 at f1 f2
  generalize hs5 : s4.dropWhile pySpace = s5 at f2 f3
  constructor
  · intro h
    split at h
    · cases h
    · rename_i hne
      simp only [Bool.or_eq_true, List.isEmpty_iff, not_or] at hne
      cases h
      have hw2n : w2 ≠ [] := by
        rintro rfl
        rw [List.nil_append] at d2
        subst d2
        rcases b3 with h | ⟨c, h1, h2⟩
        · rw [h] at e2
          have := (List.append_eq_nil_iff.mp e2.symm).1
          exact hne.1.2 this
        · obtain ⟨c', h3, h4⟩ := word_head (r := s4) hne.1.2 e1
          rw [← e2, h1] at h3
          cases h3
          exact h4 h2
      have hw3n : w3 ≠ [] := by
        rintro rfl
        rw [List.nil_append] at f2
        subst f2
        rcases e3 with h | ⟨c, h1, h2⟩
        · exact hne.2 h
        · rcases f3 with h | ⟨c', h3, h4⟩
          · exact hne.2 h
          · rw [h1] at h3
            cases h3
            exact h4 h2
      refine ⟨w1, w2, w3, ?_, ?_, hw2n, hw3n, hne.1.1, hne.1.2, ?_, ?_⟩
      · rw [a2, b2, d2, e2, f2]
        simp only [List.append_assoc]
      · intro c hc
        simp only [List.mem_append] at hc
        rcases hc with (hc | hc) | hc
        · exact a1 c hc
        · exact d1 c hc
        · exact f1 c hc
      · intro c hc
        rcases List.mem_append.mp hc with hc | hc
        · exact b1 c hc
        · exact e1 c hc
      · exact f3.resolve_left hne.2
  · rintro ⟨v1, v2, v3, h1, h2, h3, h4, h5, h6, h7, h8⟩
    have hv1 : ∀ c ∈ v1, White c := fun c hc => h2 c (by simp [hc])
    have hv2 : ∀ c ∈ v2, White c := fun c hc => h2 c (by simp [hc])
    have hv3 : ∀ c ∈ v3, White c := fun c hc => h2 c (by simp [hc])
    have hcode : ∀ c ∈ code, ¬ White c := fun c hc => h7 c (by simp [hc])
    have hcont : ∀ c ∈ continent, ¬ White c := fun c hc => h7 c (by simp [hc])
    simp only [List.append_assoc] at h1
    obtain ⟨-, k1⟩ := whites_split.mp ⟨hv1, h1, .inr (word_head h5 hcode)⟩
    rw [hs1] at k1
    obtain ⟨k2, k3⟩ := word_split.mp ⟨hcode, k1.symm, .inr (gap_head h3 hv2)⟩
    rw [hc1] at k2
    rw [hs2] at k3
    obtain ⟨-, k4⟩ := whites_split.mp ⟨hv2, k3.symm, .inr (word_head h6 hcont)⟩
    rw [hs3] at k4
    obtain ⟨k5, k6⟩ := word_split.mp ⟨hcont, k4.symm, .inr (gap_head h4 hv3)⟩
    rw [hc2] at k5
    rw [hs4] at k6
    obtain ⟨-, k7⟩ := whites_split.mp ⟨hv3, k6.symm, .inr h8⟩
    rw [hs5] at k7
    subst k2 k5 k7
    have hn : name ≠ [] := by
      rintro rfl
      obtain ⟨c, h, -⟩ := h8
      cases h
    rw [if_neg]
    simp [h5, h6, hn]

theorem aboutCountry_iff {line code continent name : Bytes} : AboutCountry line code continent name ↔
    (pyRstrip line).head? ≠ some 35 ∧ splitCountry (pyRstrip line) = some (code, continent, name) := by
  rw [splitCountry_iff]
  constructor
  · rintro ⟨s, w1, w2, w3, h1, h2, h3⟩
    rw [endTrimmed_iff] at h1
    subst h1
    exact ⟨h2, w1, w2, w3, h3⟩
  · rintro ⟨h1, w1, w2, w3, h2⟩
    exact ⟨_, w1, w2, w3, endTrimmed_iff.mpr rfl, h1, h2⟩

theorem aboutCountry_unique {line a b c a' b' c' : Bytes} (h : AboutCountry line a b c) (h' : AboutCountry line a' b' c') :
    a = a' ∧ b = b' ∧ c = c' := by
  have h1 := (aboutCountry_iff.mp h).2
  rw [(aboutCountry_iff.mp h').2] at h1
  injection h1 with h1
  injection h1 with h1 h2
  injection h2 with h2 h3
  exact ⟨h1.symm, h2.symm, h3.symm⟩

theorem countryRows_spec {lines : List Bytes} {t : CountryTable} (hk : (t.map (·.1)).Nodup) :
    (countryRows t lines = none ∧ ∃ line ∈ lines, ∃ a b c, AboutCountry line a b c ∧ 0 ∈ a ++ b ++ c) ∨
    ∃ t', countryRows t lines = some t' ∧ (¬ ∃ line ∈ lines, ∃ a b c, AboutCountry line a b c ∧ 0 ∈ a ++ b ++ c) ∧
      (t'.map (·.1)).Nodup ∧
      ∀ a b c, (a, b, c) ∈ t' ↔ (a, b, c) ∈ t ∨ (a ∉ t.map (·.1) ∧ FirstLine lines a b c) := by
  induction lines generalizing t with
  | nil =>
    refine .inr ⟨t, rfl, fun ⟨l, h, _⟩ => (by cases h), hk, fun a b c => ⟨.inl, ?_⟩⟩
    rintro (h | ⟨-, pre, l, post, h, -⟩)
    · exact h
    · cases pre <;> cases h
  | cons line lines ih =>
    have hu : countryRows t (line :: lines) = if (pyRstrip line).head? = some 35 then countryRows t lines
      else match splitCountry (pyRstrip line) with
      | none => countryRows t lines
      | some (code, continent, name) =>
        if code.contains 0 || continent.contains 0 || name.contains 0 then none
        else countryRows (putNew t code (continent, name)) lines := rfl
    by_cases hl : ∃ a b c, AboutCountry line a b c
    · obtain ⟨a, b, c, hl⟩ := hl
      obtain ⟨h1, h2⟩ := aboutCountry_iff.mp hl
      rw [hu, if_neg h1, h2]
      simp only
      by_cases h0 : (0 : Byte) ∈ a ++ b ++ c
      · refine .inl ⟨if_pos ?_, line, List.mem_cons_self, a, b, c, hl, h0⟩
        simpa [or_assoc] using h0
      · rw [if_neg (by simpa [or_assoc] using h0)]
        have hk' : ((putNew t a (b, c)).map (·.1)).Nodup := by
          by_cases ha : a ∈ t.map (·.1)
          · rw [putNew_pos ha]
            exact hk
          · rw [putNew_neg ha, List.map_append, List.nodup_append]
            refine ⟨hk, List.pairwise_singleton _ _, fun x hx y hy => ?_⟩
            rw [List.map_singleton, List.mem_singleton] at hy
            rintro rfl
            rw [hy] at hx
            exact ha hx
        rcases ih hk' with ⟨g1, l, hl', g2⟩ | ⟨t', g1, g2, g3, g4⟩
        · exact .inl ⟨g1, l, List.mem_cons_of_mem _ hl', g2⟩
        · refine .inr ⟨t', g1, ?_, g3, fun a' b' c' => ?_⟩
          · rintro ⟨l, hl', a', b', c', h3, h4⟩
            rcases List.mem_cons.mp hl' with rfl | hl'
            · obtain ⟨rfl, rfl, rfl⟩ := aboutCountry_unique hl h3
              exact h0 h4
            · exact g2 ⟨l, hl', a', b', c', h3, h4⟩
          · rw [g4]
            constructor
            · rintro (h | ⟨h, h'⟩)
              · by_cases ha : a ∈ t.map (·.1)
                · rw [putNew_pos ha] at h
                  exact .inl h
                · rw [putNew_neg ha, List.mem_append, List.mem_singleton] at h
                  rcases h with h | h
                  · exact .inl h
                  · cases h
                    exact .inr ⟨ha, [], line, lines, rfl, hl, fun l h => (by cases h)⟩
              · have hne : a' ≠ a ∧ a' ∉ t.map (·.1) := by
                  by_cases ha : a ∈ t.map (·.1)
                  · rw [putNew_pos ha] at h
                    exact ⟨fun he => h (he ▸ ha), h⟩
                  · rw [putNew_neg ha, List.map_append, List.mem_append, not_or] at h
                    exact ⟨by simpa using h.2, h.1⟩
                obtain ⟨pre, l, post, rfl, k1, k2⟩ := h'
                refine .inr ⟨hne.2, line :: pre, l, post, rfl, k1, fun l' hl' b'' c'' hc => ?_⟩
                rcases List.mem_cons.mp hl' with rfl | hl'
                · exact hne.1 (aboutCountry_unique hc hl).1
                · exact k2 l' hl' b'' c'' hc
            · rintro (h | ⟨h, pre, l, post, h3, k1, k2⟩)
              · by_cases ha : a ∈ t.map (·.1)
                · rw [putNew_pos ha]
                  exact .inl h
                · rw [putNew_neg ha]
                  exact .inl (List.mem_append_left _ h)
              · cases pre with
                | nil =>
                  cases h3
                  obtain ⟨rfl, rfl, rfl⟩ := aboutCountry_unique hl k1
                  rw [putNew_neg h]
                  exact .inl (List.mem_append_right _ List.mem_cons_self)
                | cons p pre =>
                  cases h3
                  have hne : a' ≠ a := by
                    rintro rfl
                    exact k2 line List.mem_cons_self b c hl
                  refine .inr ⟨?_, pre, l, post, rfl, k1, fun l' hl' => k2 l' (List.mem_cons_of_mem _ hl')⟩
                  by_cases ha : a ∈ t.map (·.1)
                  · rw [putNew_pos ha]
                    exact h
                  · rw [putNew_neg ha, List.map_append, List.mem_append, not_or]
                    exact ⟨h, by simpa using hne⟩
    · have hskip : countryRows t (line :: lines) = countryRows t lines := by
        rw [hu]
        by_cases h1 : (pyRstrip line).head? = some 35
        · exact if_pos h1
        · rw [if_neg h1]
          cases h2 : splitCountry (pyRstrip line) with
          | none => rfl
          | some x => exact absurd ⟨_, _, _, aboutCountry_iff.mpr ⟨h1, h2⟩⟩ hl
      rw [hskip]
      rcases ih hk with ⟨g1, l, hl', g2⟩ | ⟨t', g1, g2, g3, g4⟩
      · exact .inl ⟨g1, l, List.mem_cons_of_mem _ hl', g2⟩
      · refine .inr ⟨t', g1, ?_, g3, fun a' b' c' => ?_⟩
        · rintro ⟨l, hl', a', b', c', h3, h4⟩
          rcases List.mem_cons.mp hl' with rfl | hl'
          · exact hl ⟨_, _, _, h3⟩
          · exact g2 ⟨l, hl', a', b', c', h3, h4⟩
        · rw [g4]
          refine or_congr_right (and_congr_right fun _ => ⟨?_, ?_⟩)
          · rintro ⟨pre, l, post, rfl, k1, k2⟩
            refine ⟨line :: pre, l, post, rfl, k1, fun l' hl' b'' c'' hc => ?_⟩
            rcases List.mem_cons.mp hl' with rfl | hl'
            · exact hl ⟨_, _, _, hc⟩
            · exact k2 l' hl' b'' c'' hc
          · rintro ⟨pre, l, post, h3, k1, k2⟩
            cases pre with
            | nil =>
              cases h3
              exact absurd ⟨_, _, _, k1⟩ hl
            | cons p pre =>
              cases h3
              exact ⟨pre, l, post, rfl, k1, fun l' hl' => k2 l' (List.mem_cons_of_mem _ hl')⟩

end Loc
