import Verif.Lemmas.Feeds
import Verif.Spec.Geofeeds
/-
Lemmas for C78: what a line of a geofeed says, and all lines of a file.
-/
namespace Loc
open Spec Props

theorem splitCommas_cons {k : Nat} {s a : Bytes} {l : List Bytes} : splitCommas (k + 1) s = a :: l ↔
    44 ∉ a ∧ ((∃ r, s = a ++ 44 :: r ∧ splitCommas k r = l) ∨ (s = a ∧ l = [])) := by
  have hu : splitCommas (k + 1) s =
    if s.contains 44 then s.takeWhile (· ≠ 44) :: splitCommas k ((s.dropWhile (· ≠ 44)).drop 1) else [s] := rfl
  rw [hu]
  by_cases h : (44 : Byte) ∈ s
  · obtain ⟨t, d, rfl, ht⟩ := cut_byte h
    rw [if_pos (by simp), (split_byte ht).1, (split_byte ht).2, List.drop_succ_cons, List.drop_zero]
    constructor
    · intro h
      injection h with h1 h2
      subst h1
      exact ⟨ht, .inl ⟨d, rfl, h2⟩⟩
    · rintro ⟨ha, ⟨r, hr, hl⟩ | ⟨hs, -⟩⟩
      · have h1 := (split_byte (x := 44) (d := d) ht)
        have h2 := (split_byte (x := 44) (d := r) ha)
        rw [hr, h2.1, h2.2] at h1
        obtain ⟨rfl, h4⟩ := h1
        injection h4 with _ h4
        subst h4
        rw [hl]
      · exact absurd (hs ▸ h) ha
  · rw [if_neg (by simpa using h)]
    constructor
    · intro h'
      injection h' with h1 h2
      subst h1
      exact ⟨h, .inr ⟨rfl, h2.symm⟩⟩
    · rintro ⟨ha, ⟨r, rfl, -⟩ | ⟨rfl, rfl⟩⟩
      · exact absurd (by simp) h
      · rfl

theorem fourFields_iff {s a b c d : Bytes} : FourFields s a b c d ↔ ∃ l, splitCommas 5 s = a :: b :: c :: d :: l := by
  unfold FourFields
  constructor
  · rintro ⟨ha, hb, hc, hd, rest, rfl, hr⟩
    obtain ⟨l, hl⟩ : ∃ l, splitCommas 2 (d ++ rest) = d :: l := by
      rcases hr with rfl | hr
      · exact ⟨[], splitCommas_cons.mpr ⟨hd, .inr ⟨by simp, rfl⟩⟩⟩
      · cases rest with
        | nil => cases hr
        | cons x r =>
          cases hr
          exact ⟨splitCommas 1 r, splitCommas_cons.mpr ⟨hd, .inl ⟨r, rfl, rfl⟩⟩⟩
    refine ⟨l, splitCommas_cons.mpr ⟨ha, .inl ⟨b ++ 44 :: (c ++ 44 :: (d ++ rest)), by simp, ?_⟩⟩⟩
    refine splitCommas_cons.mpr ⟨hb, .inl ⟨c ++ 44 :: (d ++ rest), rfl, ?_⟩⟩
    exact splitCommas_cons.mpr ⟨hc, .inl ⟨d ++ rest, rfl, hl⟩⟩
  · rintro ⟨l, h⟩
    obtain ⟨ha, ⟨r1, rfl, h1⟩ | ⟨-, h1⟩⟩ := splitCommas_cons.mp h
    · obtain ⟨hb, ⟨r2, rfl, h2⟩ | ⟨-, h2⟩⟩ := splitCommas_cons.mp h1
      · obtain ⟨hc, ⟨r3, rfl, h3⟩ | ⟨-, h3⟩⟩ := splitCommas_cons.mp h2
        · obtain ⟨hd, h4⟩ := splitCommas_cons.mp h3
          refine ⟨ha, hb, hc, hd, ?_⟩
          rcases h4 with ⟨r, rfl, -⟩ | ⟨rfl, -⟩
          · exact ⟨44 :: r, by simp, .inr rfl⟩
          · exact ⟨[], by simp, .inl rfl⟩
        · cases h3
      · cases h2
    · cases h1

theorem geoFields_iff {e : GeoEnv} {line a b c d : Bytes} : GeoFields e line a b c d ↔
    e.decodes line = true ∧ (pyRstrip line).head? ≠ some 35 ∧ ∃ l, splitCommas 5 (pyRstrip line) = a :: b :: c :: d :: l := by
  unfold GeoFields
  constructor
  · rintro ⟨h1, s, h2, h3, h4⟩
    rw [endTrimmed_iff.mp h2]
    exact ⟨h1, h3, fourFields_iff.mp h4⟩
  · rintro ⟨h1, h2, h3⟩
    exact ⟨h1, _, endTrimmed_iff.mpr rfl, h2, fourFields_iff.mpr h3⟩

theorem geoFields_unique {e : GeoEnv} {line a b c d a' b' c' d' : Bytes} (h : GeoFields e line a b c d) (h' : GeoFields e line a' b' c' d') :
    a = a' ∧ b = b' ∧ c = c' ∧ d = d' := by
  obtain ⟨-, -, l, h⟩ := geoFields_iff.mp h
  obtain ⟨-, -, l', h'⟩ := geoFields_iff.mp h'
  rw [h] at h'
  injection h' with h1 h'
  injection h' with h2 h'
  injection h' with h3 h'
  injection h' with h4 h'
  exact ⟨h1, h2, h3, h4⟩

theorem meansCode_iff {b code : Bytes} : MeansCode b code ↔ code = pyUpper (pyStrip b) := by
  unfold MeansCode
  constructor
  · rintro ⟨s, h1, rfl⟩
    rw [bothTrimmed_iff.mp h1, pyUpper_eq]
  · rintro rfl
    exact ⟨_, bothTrimmed_iff.mpr rfl, pyUpper_eq _⟩

theorem upper_zero {c : Byte} : upper c = 0 ↔ c = 0 := by
  unfold upper
  revert c
  decide +kernel

/-- No NUL is stripped or made. -/
theorem zero_code (b : Bytes) : 0 ∈ pyUpper (pyStrip b) ↔ 0 ∈ b := by
  rw [pyUpper_eq, List.mem_map]
  obtain ⟨-, w1, w2, h, h1, h2⟩ := strip_spec b
  constructor
  · rintro ⟨c, hc, h0⟩
    rw [upper_zero.mp h0] at hc
    rw [h]
    exact List.mem_append_left _ (List.mem_append_right _ hc)
  · intro h0
    rw [h] at h0
    simp only [List.mem_append] at h0
    rcases h0 with (h0 | h0) | h0
    · exact absurd (h1 _ h0) (by decide)
    · exact ⟨0, h0, rfl⟩
    · exact absurd (h2 _ h0) (by decide)

theorem validCC_ne {s : CStr} (h : ValidCC s) : s ≠ [] ∧ (0 : Byte) ∉ s := by
  obtain ⟨c0, c1, rfl, h1, -, h2, -⟩ := h
  refine ⟨by simp, fun h0 => ?_⟩
  simp only [List.mem_cons, List.not_mem_nil, or_false] at h0
  rcases h0 with rfl | rfl
  · exact absurd h1 (by decide)
  · exact absurd h2 (by decide)

/-- What becomes of a line with these fields and this network. -/
theorem geoLine_fields {e : GeoEnv} {line a b c d : Bytes} (h : GeoFields e line a b c d) : geoLine e line =
    match ipNetwork a with
    | none => .skip
    | some n =>
      if (pyUpper (pyStrip b)).isEmpty then .skip
      else if (pyUpper (pyStrip b)).contains 0 then .raised
      else if !ccIsValid (some (pyUpper (pyStrip b))) then .skip
      else if c.contains 0 || d.contains 0 then .raised
      else .row ⟨n, pyUpper (pyStrip b), c, d⟩ := by
  obtain ⟨h1, h2, l, h3⟩ := geoFields_iff.mp h
  have hne : (pyRstrip line).isEmpty = false := by
    cases hp : pyRstrip line with
    | nil =>
      rw [hp] at h3
      revert h3
      have : splitCommas 5 [] = [[]] := by decide
      rw [this]
      intro h3
      cases h3
    | cons _ _ => rfl
  unfold geoLine
  rw [h1, hne, h3, if_neg (by decide), if_neg (by decide), if_neg h2]
  rfl

theorem geoLine_other {e : GeoEnv} {line : Bytes} (h : ∀ a b c d, ¬ GeoFields e line a b c d) : geoLine e line = .skip := by
  unfold geoLine
  by_cases h1 : e.decodes line = true
  · rw [h1, if_neg (by decide)]
    split
    · rfl
    · split
      · rfl
      · rename_i h2
        split
        · rename_i a b c d l h3
          exact absurd (geoFields_iff.mpr ⟨h1, h2, l, h3⟩) (h a b c d)
        · rfl
  · rw [if_pos (by simpa using h1)]

theorem geoLine_spec (e : GeoEnv) (line : Bytes) : (geoLine e line = .raised ↔ GeoFatal e line) ∧
    ∀ r, geoLine e line = .row r ↔ GeoSays e line r ∧ ¬ GeoFatal e line := by
  by_cases hF : ∃ a b c d, GeoFields e line a b c d
  · obtain ⟨a, b, c, d, hF⟩ := hF
    rw [geoLine_fields hF]
    by_cases hn : ∃ n, NamesNet a n
    · obtain ⟨n, hn⟩ := hn
      rw [ipNetwork_iff.mpr hn]
      have hfatal : GeoFatal e line ↔ (0 ∈ b ∨ (ValidCC (pyUpper (pyStrip b)) ∧ (0 ∈ c ∨ 0 ∈ d))) := by
        constructor
        · rintro ⟨a', b', c', d', n', h1, -, h2⟩
          obtain ⟨rfl, rfl, rfl, rfl⟩ := geoFields_unique hF h1
          rcases h2 with h2 | ⟨⟨code, h3, h4⟩, h2⟩
          · exact .inl h2
          · rw [meansCode_iff] at h3
            exact .inr ⟨h3 ▸ h4, h2⟩
        · rintro (h | ⟨h1, h2⟩)
          · exact ⟨a, b, c, d, n, hF, hn, .inl h⟩
          · exact ⟨a, b, c, d, n, hF, hn, .inr ⟨⟨_, meansCode_iff.mpr rfl, h1⟩, h2⟩⟩
      have hsays : ∀ r, GeoSays e line r ↔ r = ⟨n, pyUpper (pyStrip b), c, d⟩ ∧ ValidCC (pyUpper (pyStrip b)) := by
        intro r
        constructor
        · rintro ⟨a', b', h1, h2, h3, h4⟩
          obtain ⟨rfl, rfl, hc, hd⟩ := geoFields_unique hF h1
          rw [meansCode_iff] at h3
          obtain ⟨rn, rc, rr, ri⟩ := r
          simp only at hc hd h2 h3 h4
          rw [← h3]
          exact ⟨by rw [namesNet_unique h2 hn, hc, hd], h4⟩
        · rintro ⟨rfl, h⟩
          exact ⟨a, b, hF, hn, meansCode_iff.mpr rfl, h⟩
      have hz := zero_code b
      have hv := ccIsValid_iff (pyUpper (pyStrip b))
      rw [hfatal]
      simp only [hsays]
      rw [← hz]
      generalize pyUpper (pyStrip b) = code at hv ⊢
      by_cases h0 : code = []
      · subst h0
        have hnv : ¬ ValidCC [] := fun h => (validCC_ne h).1 rfl
        simp [hnv]
      · rw [if_neg (by simpa using h0)]
        by_cases h1 : 0 ∈ code
        · rw [if_pos (by simpa using h1)]
          exact ⟨⟨fun _ => .inl h1, fun _ => rfl⟩, fun r => ⟨fun h => (by cases h), fun h => absurd (.inl h1) h.2⟩⟩
        · rw [if_neg (by simpa using h1)]
          by_cases h2 : ValidCC code
          · rw [hv.mpr h2, if_neg (by decide)]
            by_cases h3 : 0 ∈ c ∨ 0 ∈ d
            · rw [if_pos (by simpa using h3)]
              exact ⟨⟨fun _ => .inr ⟨h2, h3⟩, fun _ => rfl⟩, fun r => ⟨fun h => (by cases h), fun h => absurd (.inr ⟨h2, h3⟩) h.2⟩⟩
            · rw [if_neg (by simpa using h3)]
              have hno : ¬ (0 ∈ code ∨ ValidCC code ∧ (0 ∈ c ∨ 0 ∈ d)) := fun h => h.elim h1 fun h => h3 h.2
              refine ⟨⟨fun h => (by cases h), fun h => absurd h hno⟩, fun r => ⟨fun h => ?_, fun h => ?_⟩⟩
              · cases h
                exact ⟨⟨rfl, h2⟩, hno⟩
              · rw [h.1.1]
          · have : ccIsValid (some code) = false := by
              rw [← Bool.not_eq_true, hv]
              exact h2
            rw [this, if_pos (by decide)]
            exact ⟨⟨fun h => (by cases h), fun h => h.elim (fun h => absurd h h1) fun h => absurd h.1 h2⟩,
              fun r => ⟨fun h => (by cases h), fun h => absurd h.1.2 h2⟩⟩
    · have hnone : ipNetwork a = none := by
        cases h : ipNetwork a with
        | none => rfl
        | some n => exact absurd ⟨n, ipNetwork_iff.mp h⟩ hn
      rw [hnone]
      have hf : ¬ GeoFatal e line := by
        rintro ⟨a', b', c', d', n', h1, h2, -⟩
        obtain ⟨rfl, -⟩ := geoFields_unique hF h1
        exact hn ⟨n', h2⟩
      refine ⟨⟨fun h => (by cases h), fun h => absurd h hf⟩, fun r => ⟨fun h => (by cases h), ?_⟩⟩
      rintro ⟨⟨a', b', h1, h2, -⟩, -⟩
      obtain ⟨rfl, -⟩ := geoFields_unique hF h1
      exact absurd ⟨_, h2⟩ hn
  · have hno : ∀ a b c d, ¬ GeoFields e line a b c d := fun a b c d h => hF ⟨a, b, c, d, h⟩
    rw [geoLine_other hno]
    refine ⟨⟨fun h => (by cases h), ?_⟩, fun r => ⟨fun h => (by cases h), ?_⟩⟩
    · rintro ⟨a, b, c, d, -, h, -⟩
      exact absurd h (hno a b c d)
    · rintro ⟨⟨a, b, h, -⟩, -⟩
      exact absurd h (hno _ _ _ _)

/-- The row that a line stands for -/
def geoSay (e : GeoEnv) (line : Bytes) : Option GeoRow :=
  match geoLine e line with
  | .row r => some r
  | _ => none

theorem geoSay_iff {e : GeoEnv} {line : Bytes} (h : ¬ GeoFatal e line) (r : GeoRow) : geoSay e line = some r ↔ GeoSays e line r := by
  have h1 := (geoLine_spec e line).2 r
  simp only [h, not_false_eq_true, and_true] at h1
  rw [← h1]
  unfold geoSay
  cases hg : geoLine e line <;> simp

theorem geoLines_eq {e : GeoEnv} {ls : List Bytes} : ((∀ l ∈ ls, ¬ GeoFatal e l) → geoLines e ls = some (ls.filterMap (geoSay e))) ∧
    ((∃ l ∈ ls, GeoFatal e l) → geoLines e ls = none) := by
  induction ls with
  | nil => exact ⟨fun _ => rfl, fun ⟨l, h, _⟩ => by cases h⟩
  | cons l ls ih =>
    have hu : geoLines e (l :: ls) = match geoLine e l with
      | .skip => geoLines e ls
      | .row r => (geoLines e ls).map (r :: ·)
      | .raised => none := rfl
    have hs : geoSay e l = match geoLine e l with
      | .row r => some r
      | _ => none := rfl
    have h1 := (geoLine_spec e l).1
    rw [hu]
    constructor
    · intro h
      rw [ih.1 fun l hl => h l (List.mem_cons_of_mem _ hl)]
      have h2 := h l List.mem_cons_self
      rw [← h1] at h2
      cases hg : geoLine e l with
      | skip =>
        rw [hg] at hs
        rw [List.filterMap_cons_none hs]
      | row r =>
        rw [hg] at hs
        rw [List.filterMap_cons_some hs]
        rfl
      | raised => exact absurd hg h2
    · rintro ⟨l', hl', hf⟩
      rcases List.mem_cons.mp hl' with rfl | hl'
      · rw [h1.mpr hf]
      · rw [ih.2 ⟨l', hl', hf⟩]
        cases geoLine e l <;> rfl

theorem forall_answers {e : GeoEnv} {ls : List Bytes} (h : ∀ l ∈ ls, ¬ GeoFatal e l) (answers : List (Option GeoRow)) :
    List.Forall₂ (fun line answer => ∀ r, answer = some r ↔ GeoSays e line r) ls answers ↔ answers = ls.map (geoSay e) := by
  induction ls generalizing answers with
  | nil =>
    constructor
    · intro h
      cases h
      rfl
    · rintro rfl
      exact .nil
  | cons l ls ih =>
    rw [List.map_cons]
    have h1 := geoSay_iff (h l List.mem_cons_self)
    have ih := ih fun l hl => h l (List.mem_cons_of_mem _ hl)
    constructor
    · rintro (_ | ⟨h2, h3⟩)
      rename_i x xs
      rw [(ih xs).mp h3]
      congr 1
      cases hx : x with
      | none =>
        cases hg : geoSay e l with
        | none => rfl
        | some r => rw [(h2 r).mpr ((h1 r).mp hg)] at hx; cases hx
      | some r => rw [(h1 r).mpr ((h2 r).mp hx)]
    · rintro rfl
      exact .cons h1 ((ih _).mpr rfl)

/-- All lines of a file -/
theorem geoLines_file (e : GeoEnv) (f : Bytes) :
    (geoLines e (fileLines f) = none ↔ ∃ lines, IsLines f lines ∧ ∃ l ∈ lines, GeoFatal e l) ∧
    ∀ rows, geoLines e (fileLines f) = some rows → GeoContents e f rows := by
  by_cases h : ∃ l ∈ fileLines f, GeoFatal e l
  · rw [geoLines_eq.2 h]
    exact ⟨⟨fun _ => ⟨_, isLines_exists f, h⟩, fun _ => rfl⟩, fun rows hr => by cases hr⟩
  · have hn : ∀ l ∈ fileLines f, ¬ GeoFatal e l := fun l hl hf => h ⟨l, hl, hf⟩
    rw [geoLines_eq.1 hn]
    refine ⟨⟨fun h' => by (cases h'), ?_⟩, fun rows hr => ?_⟩
    · rintro ⟨lines, hl, h'⟩
      rw [← fileLines_unique hl] at h'
      exact absurd h' h
    · injection hr with hr
      subst hr
      refine ⟨_, _, isLines_exists f, ?_, (forall_answers hn _).mpr rfl⟩
      rw [List.filterMap_map]
      rfl

/-- The contents of a file are determined, unless there are fatal lines. -/
theorem geoContents_unique {e : GeoEnv} {f : Bytes} {rows : List GeoRow} (h : GeoContents e f rows)
    (hn : ∀ l ∈ fileLines f, ¬ GeoFatal e l) : geoLines e (fileLines f) = some rows := by
  obtain ⟨lines, answers, h1, rfl, h2⟩ := h
  rw [← fileLines_unique h1] at h2
  rw [geoLines_eq.1 hn, (forall_answers hn _).mp h2, List.filterMap_map]
  rfl

end Loc
