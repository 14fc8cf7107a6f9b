import Verif.Spec.Dump
import Verif.Lemmas.Formats
/-
Lemmas about files in blocks and dumps.
-/
namespace Loc
open Spec

/-! ## Strings -/

theorem pySpace_iff (c : Byte) : pySpace c = true ↔ White c :=
  forall_byte (P := fun c => pySpace c = true ↔ White c) (by decide +kernel) c

theorem rstrip_unique {s t ws : Bytes} (hs : s = t ++ ws) (hw : ∀ c ∈ ws, White c) (ht : ∀ c, t.getLast? = some c → ¬ White c) :
    pyRstrip s = t := by
  subst hs
  unfold pyRstrip
  rw [List.reverse_append, List.dropWhile_append_of_pos (fun a ha => (pySpace_iff a).mpr (hw a (List.mem_reverse.mp ha)))]
  have : t.reverse.dropWhile pySpace = t.reverse := by
    cases hr : t.reverse with
    | nil => rfl
    | cons c r =>
      refine List.dropWhile_cons_of_neg fun hc => ht c ?_ ((pySpace_iff c).mp hc)
      rw [← List.head?_reverse, hr]
      rfl
  rw [this, List.reverse_reverse]

theorem rstrip_spec (s : Bytes) : ∃ ws, s = pyRstrip s ++ ws ∧ (∀ c ∈ ws, White c) ∧ ∀ c, (pyRstrip s).getLast? = some c → ¬ White c := by
  refine ⟨(s.reverse.takeWhile pySpace).reverse, ?_, ?_, ?_⟩
  · unfold pyRstrip
    rw [← List.reverse_append, List.takeWhile_append_dropWhile, List.reverse_reverse]
  · intro c hc
    exact (pySpace_iff c).mp (List.mem_takeWhile_imp (List.mem_reverse.mp hc))
  · intro c hc hw
    unfold pyRstrip at hc
    rw [List.getLast?_reverse] at hc
    have := List.head?_dropWhile_not pySpace s.reverse
    rw [hc] at this
    exact absurd ((pySpace_iff c).mpr hw) (by simpa using this)

theorem strip_unique {s t w1 w2 : Bytes} (hs : s = w1 ++ t ++ w2) (h1 : ∀ c ∈ w1, White c) (h2 : ∀ c ∈ w2, White c) (ht : Trimmed t) :
    pyStrip s = t := by
  subst hs
  unfold pyStrip
  rw [List.append_assoc, List.dropWhile_append_of_pos (fun a ha => (pySpace_iff a).mpr (h1 a ha))]
  cases t with
  | nil =>
    rw [List.nil_append]
    refine rstrip_unique (t := []) (ws := w2.dropWhile pySpace) rfl (fun c hc => h2 c ?_) (by intro c hc; cases hc)
    exact (List.dropWhile_sublist pySpace).subset hc
  | cons c r =>
    rw [List.cons_append, List.dropWhile_cons_of_neg (fun hc => ht.1 c rfl ((pySpace_iff c).mp hc)), ← List.cons_append]
    exact rstrip_unique rfl h2 ht.2

theorem strip_spec (s : Bytes) : Trimmed (pyStrip s) ∧ ∃ w1 w2, s = w1 ++ pyStrip s ++ w2 ∧ (∀ c ∈ w1, White c) ∧ ∀ c ∈ w2, White c := by
  obtain ⟨ws, h1, h2, h3⟩ := rstrip_spec (s.dropWhile pySpace)
  refine ⟨⟨?_, h3⟩, s.takeWhile pySpace, ws, ?_, fun c hc => (pySpace_iff c).mp (List.mem_takeWhile_imp hc), h2⟩
  · intro c hc hw
    unfold pyStrip at hc
    have hd : (s.dropWhile pySpace).head? = some c := by
      rw [h1]
      cases hp : pyRstrip (s.dropWhile pySpace) with
      | nil => rw [hp] at hc; cases hc
      | cons x y => rw [hp] at hc; exact hc
    have := List.head?_dropWhile_not pySpace s
    rw [hd] at this
    exact absurd ((pySpace_iff c).mpr hw) (by simpa using this)
  · unfold pyStrip
    rw [List.append_assoc, ← h1, List.takeWhile_append_dropWhile]

/-- Splitting at the first of some byte -/
theorem split_byte {x : Byte} {t d : Bytes} (ht : x ∉ t) :
    (t ++ x :: d).takeWhile (· ≠ x) = t ∧ (t ++ x :: d).dropWhile (· ≠ x) = x :: d := by
  have hp : ∀ a ∈ t, decide (a ≠ x) = true := fun a ha => decide_eq_true (fun he => ht (he ▸ ha))
  constructor
  · rw [List.takeWhile_append_of_pos hp, List.takeWhile_cons_of_neg (by simp), List.append_nil]
  · rw [List.dropWhile_append_of_pos hp, List.dropWhile_cons_of_neg (by simp)]

theorem no_byte {x : Byte} {t : Bytes} (ht : x ∉ t) : t.takeWhile (· ≠ x) = t ∧ t.dropWhile (· ≠ x) = [] := by
  have hp : ∀ a ∈ t, decide (a ≠ x) = true := fun a ha => decide_eq_true (fun he => ht (he ▸ ha))
  have h1 := List.takeWhile_append_of_pos (l₂ := []) hp
  have h2 := List.dropWhile_append_of_pos (l₂ := []) hp
  simp only [List.append_nil, List.takeWhile_nil, List.dropWhile_nil] at h1 h2
  exact ⟨h1, h2⟩

/-! ## Lines -/

theorem fileLines_cons {l : Bytes} (h : 10 ∉ l) (rest : Bytes) : fileLines (l ++ 10 :: rest) = (l ++ [10]) :: fileLines rest := by
  induction l with
  | nil => exact if_pos rfl
  | cons c l ih =>
    have hc : c ≠ 10 := fun he => h (he ▸ List.mem_cons_self)
    rw [List.cons_append, fileLines, if_neg hc, ih (fun hm => h (List.mem_cons_of_mem _ hm))]
    rfl

theorem fileLines_last {l : Bytes} (h : 10 ∉ l) (hne : l ≠ []) : fileLines l = [l] := by
  induction l with
  | nil => exact absurd rfl hne
  | cons c l ih =>
    have hc : c ≠ 10 := fun he => h (he ▸ List.mem_cons_self)
    rw [fileLines, if_neg hc]
    cases l with
    | nil => rfl
    | cons d l => rw [ih (fun hm => h (List.mem_cons_of_mem _ hm)) (by simp)]

theorem fileLines_unique {s : Bytes} {ls : List Bytes} (h : IsLines s ls) : fileLines s = ls := by
  induction h with
  | nil => rfl
  | last h hne => exact fileLines_last h hne
  | cons h _ ih => rw [fileLines_cons h, ih]

theorem isLines_exists (s : Bytes) : IsLines s (fileLines s) := by
  have : ∀ k (s : Bytes), s.length ≤ k → IsLines s (fileLines s) := by
    intro k
    induction k with
    | zero =>
      intro s hs
      cases s with
      | nil => exact .nil
      | cons => simp at hs
    | succ k ih =>
      intro s hs
      by_cases h : 10 ∈ s
      · obtain ⟨l, r, rfl, hl⟩ := List.append_of_mem h |> fun ⟨l, r, e⟩ => (⟨s.takeWhile (· ≠ 10), (s.dropWhile (· ≠ 10)).drop 1, by
            have hd : s.dropWhile (· ≠ 10) = 10 :: (s.dropWhile (· ≠ 10)).drop 1 := by
              cases hx : s.dropWhile (· ≠ 10) with
              | nil =>
                have : ∀ a ∈ s, a ≠ 10 := by simpa [List.dropWhile_eq_nil_iff] using hx
                exact absurd rfl (this 10 h)
              | cons a b =>
                have := List.head?_dropWhile_not (fun a => decide (a ≠ (10 : Byte))) s
                rw [hx] at this
                have ha : a = 10 := by simpa using this
                rw [ha]
                rfl
            rw [← hd, List.takeWhile_append_dropWhile], by
            intro hm
            exact absurd (List.mem_takeWhile_imp hm) (by simp)⟩ : ∃ l r, s = l ++ 10 :: r ∧ 10 ∉ l)
        rw [fileLines_cons hl]
        exact .cons hl (ih r (by simp at hs; omega))
      · cases s with
        | nil => exact .nil
        | cons c s => rw [fileLines_last h (by simp)]; exact .last h (by simp)
  exact this _ s (Nat.le_refl _)

/-! ## Blocks -/

theorem white_not_hash {c : Byte} (h : White c) : c ≠ 35 ∧ c ≠ 37 := by
  constructor <;> (rintro rfl; revert h; decide)

theorem iter_first {line : Bytes} (h : line.head? = some 35 ∨ line.head? = some 37) (block rest : List Bytes) :
    iterBlocks block (line :: rest) = iterBlocks block rest := by
  rw [iterBlocks]
  exact if_pos h

theorem head_white {ws x : Bytes} (hw : ∀ c ∈ ws, White c) (hne : ws ≠ []) : ¬ ((ws ++ x).head? = some 35 ∨ (ws ++ x).head? = some 37) := by
  cases ws with
  | nil => exact absurd rfl hne
  | cons c ws =>
    have := white_not_hash (hw c List.mem_cons_self)
    rintro (h | h)
    · exact this.1 (Option.some.inj h)
    · exact this.2 (Option.some.inj h)

/-- A comment is skipped if a newline follows, or if it is the last line. -/
theorem iter_remark {line : Bytes} (h : Remark line) (block : List Bytes) (rest : List Bytes) (he : rest = [] ∨ line.getLast? = some 10) :
    iterBlocks block (line :: rest) = iterBlocks block rest := by
  by_cases hf : line.head? = some 35 ∨ line.head? = some 37
  · exact iter_first hf block rest
  rcases h with h | h | ⟨ws, r, rfl, hw⟩
  · exact absurd (.inl h) hf
  · exact absurd (.inr h) hf
  have hws : ws.takeWhile (· ≠ 35) = ws := (no_byte fun hm => (white_not_hash (hw 35 hm)).1 rfl).1
  obtain ⟨s1, s2⟩ := split_byte (x := 35) (t := ws) (d := r) fun hm => (white_not_hash (hw 35 hm)).1 rfl
  rw [iterBlocks, if_neg hf]
  simp only [s1, s2, List.drop_succ_cons, List.drop_zero]
  have ht : pyRstrip ws = [] := rstrip_unique (t := []) rfl hw (by intro c hc; cases hc)
  rw [ht]
  cases r with
  | cons c r => exact if_pos rfl
  | nil =>
    rcases he with rfl | he
    · simp only [List.isEmpty_nil, Bool.not_true, Bool.false_and, Bool.false_eq_true, if_false]
      rw [iterBlocks, iterBlocks]
      rfl
    · simp at he

theorem iter_content {line t : Bytes} (h : Content line t) (block rest : List Bytes) :
    iterBlocks block (line :: rest) = iterBlocks (block ++ [t]) rest := by
  obtain ⟨hne, h1, h2, h3, h4, ws, r, rfl, hw, hr⟩ := h
  have hnot : 35 ∉ t ++ ws := by
    intro hm
    rcases List.mem_append.mp hm with hm | hm
    · exact h3 hm
    · exact (white_not_hash (hw 35 hm)).1 rfl
  have ht : pyRstrip (t ++ ws) = t := rstrip_unique rfl hw h4
  rw [iterBlocks, if_neg (by rintro (h | h); exacts [h1 h, h2 h])]
  have hte : t.isEmpty = false := by cases t with
    | nil => exact absurd rfl hne
    | cons => rfl
  have key : pyRstrip ((t ++ ws ++ r).takeWhile (· ≠ 35)) = t := by
    rcases hr with rfl | hr
    · rw [List.append_nil, (no_byte hnot).1, ht]
    · cases r with
      | nil => cases hr
      | cons c r =>
        cases hr
        rw [(split_byte hnot).1, ht]
  simp only [key, hte, Bool.and_false, Bool.not_false, if_true, Bool.false_eq_true, if_false]

theorem iter_blank {line : Bytes} (h : Blank line) (block rest : List Bytes) :
    iterBlocks block (line :: rest) = if block.isEmpty then iterBlocks [] rest else block :: iterBlocks [] rest := by
  have hn : 35 ∉ line := fun hm => (white_not_hash (h 35 hm)).1 rfl
  have hf : ¬ (line.head? = some 35 ∨ line.head? = some 37) := by
    cases line with
    | nil => simp
    | cons c l => simpa using head_white (x := []) h (by simp)
  have ht : pyRstrip line = [] := rstrip_unique (t := []) rfl h (by intro c hc; cases hc)
  rw [iterBlocks, if_neg hf]
  simp only [(no_byte hn).1, (no_byte hn).2, ht]
  rfl

theorem line_cases (line : Bytes) : Remark line ∨ (∃ t, Content line t) ∨ Blank line := by
  by_cases h35 : line.head? = some 35
  · exact .inl (.inl h35)
  by_cases h37 : line.head? = some 37
  · exact .inl (.inr (.inl h37))
  obtain ⟨ws, h1, h2, h3⟩ := rstrip_spec (line.takeWhile (· ≠ 35))
  have hline : line = line.takeWhile (· ≠ 35) ++ line.dropWhile (· ≠ 35) := List.takeWhile_append_dropWhile.symm
  have hhead : line.dropWhile (· ≠ 35) = [] ∨ (line.dropWhile (· ≠ 35)).head? = some 35 := by
    have := List.head?_dropWhile_not (fun a => decide (a ≠ (35 : Byte))) line
    cases hx : line.dropWhile (· ≠ 35) with
    | nil => exact .inl rfl
    | cons a b =>
      rw [hx] at this
      exact .inr (by simpa using this)
  have hno : 35 ∉ pyRstrip (line.takeWhile (· ≠ 35)) := by
    intro hm
    have : (35 : Byte) ∈ line.takeWhile (· ≠ 35) := by rw [h1]; exact List.mem_append_left _ hm
    exact absurd (List.mem_takeWhile_imp this) (by simp)
  by_cases hne : pyRstrip (line.takeWhile (· ≠ 35)) = []
  · rw [hne, List.nil_append] at h1
    rcases hhead with hh | hh
    · refine .inr (.inr fun c hc => h2 c ?_)
      rw [hline, hh, List.append_nil, h1] at hc
      exact hc
    · refine .inl (.inr (.inr ⟨ws, (line.dropWhile (· ≠ 35)).drop 1, ?_, h2⟩))
      cases hx : line.dropWhile (· ≠ 35) with
      | nil => rw [hx] at hh; cases hh
      | cons a b =>
        rw [hx] at hh
        cases hh
        rw [hx, h1] at hline
        exact hline
  · exact .inr (.inl ⟨_, hne, h35, h37, hno, h3, ws, line.dropWhile (· ≠ 35), by rw [← h1]; exact hline, h2, hhead⟩)

/-- Every line but the last ends with a newline. -/
def Ended : List Bytes → Prop
  | [] => True
  | l :: rest => (rest = [] ∨ l.getLast? = some 10) ∧ Ended rest

theorem ended_of_lines {s : Bytes} {ls : List Bytes} (h : IsLines s ls) : Ended ls := by
  induction h with
  | nil => exact True.intro
  | last => exact ⟨.inl rfl, True.intro⟩
  | cons _ _ ih => exact ⟨.inr (by simp), ih⟩

theorem iter_body {body ts : List Bytes} (h : Body body ts) : ∀ (block rest : List Bytes), Ended (body ++ rest) →
    iterBlocks block (body ++ rest) = iterBlocks (block ++ ts) rest ∧ Ended rest := by
  induction h with
  | nil => intro block rest he; simpa using he
  | remark h _ ih =>
    intro block rest he
    rw [List.cons_append] at he ⊢
    rw [iter_remark h _ _ he.1]
    exact ih block rest he.2
  | @content line t lines ts h _ ih =>
    intro block rest he
    rw [List.cons_append] at he ⊢
    rw [iter_content h]
    have := ih (block ++ [t]) rest he.2
    rw [List.append_assoc] at this
    exact this

theorem inBlocks_nil {bs : List (List Bytes)} (h : InBlocks [] bs) : bs = [] := by
  generalize hl : ([] : List Bytes) = l at h
  cases h with
  | nil => rfl
  | remark => cases hl
  | blank => cases hl
  | block h hne _ _ =>
    have := (List.append_eq_nil_iff.mp hl.symm).1
    subst this
    cases h
    exact absurd rfl hne

theorem inBlocks_sound {lines : List Bytes} {bs : List (List Bytes)} (h : InBlocks lines bs) : Ended lines → iterBlocks [] lines = bs := by
  induction h with
  | nil => intro _; rfl
  | remark h _ ih => intro he; rw [iter_remark h _ _ he.1]; exact ih he.2
  | blank h _ ih => intro he; rw [iter_blank h]; exact ih he.2
  | @block body rest ts bs h hne hr hb ih =>
    intro he
    obtain ⟨h1, h2⟩ := iter_body h [] rest he
    rw [h1, List.nil_append]
    have hte : ts.isEmpty = false := by cases ts with
      | nil => exact absurd rfl hne
      | cons => rfl
    rcases hr with rfl | ⟨line, more, rfl, hbl⟩
    · rw [inBlocks_nil hb, iterBlocks, hte]
      rfl
    · have hi := ih h2
      rw [iter_blank hbl] at hi ⊢
      rw [hte]
      simp only [List.isEmpty_nil, if_true] at hi
      rw [hi]
      rfl

theorem inBlocks_complete : ∀ (lines : List Bytes), Ended lines → InBlocks lines (iterBlocks [] lines) ∧
    ∀ block : List Bytes, block ≠ [] → ∃ body ts rest bs, lines = body ++ rest ∧ Body body ts ∧
      (rest = [] ∨ ∃ line more, rest = line :: more ∧ Blank line) ∧ InBlocks rest bs ∧ iterBlocks block lines = (block ++ ts) :: bs
  | [], _ => ⟨.nil, fun block hne => ⟨[], [], [], [], rfl, .nil, .inl rfl, .nil, by
      cases block with
      | nil => exact absurd rfl hne
      | cons => simp [iterBlocks]⟩⟩
  | line :: lines, he => by
    obtain ⟨ih1, ih2⟩ := inBlocks_complete lines he.2
    rcases line_cases line with h | ⟨t, h⟩ | h
    · refine ⟨?_, fun block hne => ?_⟩
      · rw [iter_remark h _ _ he.1]; exact .remark h ih1
      · obtain ⟨body, ts, rest, bs, rfl, h1, h2, h3, h4⟩ := ih2 block hne
        exact ⟨line :: body, ts, rest, bs, rfl, .remark h h1, h2, h3, by rw [iter_remark h _ _ he.1]; exact h4⟩
    · refine ⟨?_, fun block hne => ?_⟩
      · obtain ⟨body, ts, rest, bs, rfl, h1, h2, h3, h4⟩ := ih2 [t] (by simp)
        rw [iter_content h, List.nil_append, h4]
        exact .block (body := line :: body) (.content h h1) (by simp) h2 h3
      · obtain ⟨body, ts, rest, bs, rfl, h1, h2, h3, h4⟩ := ih2 (block ++ [t]) (by simp)
        exact ⟨line :: body, t :: ts, rest, bs, rfl, .content h h1, h2, h3, by
          rw [iter_content h, h4, List.append_assoc]; rfl⟩
    · refine ⟨?_, fun block hne => ?_⟩
      · rw [iter_blank h]; exact .blank h ih1
      · refine ⟨[], [], line :: lines, iterBlocks [] lines, rfl, .nil, .inr ⟨line, lines, rfl, h⟩, .blank h ih1, ?_⟩
        rw [iter_blank h, List.append_nil]
        cases block with
        | nil => exact absurd rfl hne
        | cons => rfl

/-! ## Keys and values -/

theorem keyLine_split {line key value : Bytes} (h : KeyLine line key value) : ∃ v, splitKey line = .ret (key, v) ∧ pyStrip v = value := by
  obtain ⟨h1, h2, w1, w2, rfl, h3, h4⟩ := h
  obtain ⟨s1, s2⟩ := split_byte (x := 58) (d := w1 ++ value ++ w2) h1
  refine ⟨w1 ++ value ++ w2, ?_, strip_unique rfl h3 h4 h2⟩
  unfold splitKey
  rw [if_pos (by simp), s1, s2]
  rfl

theorem splitKey_keyLine {line key v : Bytes} (h : splitKey line = .ret (key, v)) : KeyLine line key (pyStrip v) := by
  unfold splitKey at h
  by_cases hc : line.contains 58 = true
  · rw [if_pos hc] at h
    cases h
    have hm : (58 : Byte) ∈ line := by simpa using hc
    obtain ⟨h1, w1, w2, h2, h3, h4⟩ := strip_spec ((line.dropWhile (· ≠ 58)).drop 1)
    refine ⟨?_, h1, w1, w2, ?_, h3, h4⟩
    · intro hm
      exact absurd (List.mem_takeWhile_imp hm) (by simp)
    · rw [← h2]
      have hd : line.dropWhile (· ≠ 58) = 58 :: (line.dropWhile (· ≠ 58)).drop 1 := by
        cases hx : line.dropWhile (· ≠ 58) with
        | nil =>
          have : ∀ a ∈ line, a ≠ 58 := by simpa [List.dropWhile_eq_nil_iff] using hx
          exact absurd rfl (this 58 hm)
        | cons a b =>
          have := List.head?_dropWhile_not (fun a => decide (a ≠ (58 : Byte))) line
          rw [hx] at this
          have ha : a = 58 := by simpa using this
          rw [ha]
          rfl
      rw [← hd, List.takeWhile_append_dropWhile]
  · rw [if_neg hc] at h
    cases h

theorem splitKey_none {line : Bytes} : splitKey line = .exc .value ↔ 58 ∉ line := by
  unfold splitKey
  by_cases hc : line.contains 58 = true
  · rw [if_pos hc]; simpa using hc
  · rw [if_neg hc]; simpa using hc

theorem dictGet_set (d : BlockData) (k k' : Bytes) (v : BlockValue) : dictGet (dictSet d k v) k' = if k = k' then some v else dictGet d k' := by
  induction d with
  | nil =>
    unfold dictGet dictSet
    by_cases h : k = k'
    · simp [h]
    · simp [h]
  | cons x d ih =>
    unfold dictSet
    by_cases hx : x.1 = k
    · rw [if_pos hx]
      unfold dictGet
      by_cases h : k = k'
      · simp [h]
      · have : x.1 ≠ k' := fun he => h (hx.symm.trans he)
        simp [h, this]
    · rw [if_neg hx]
      unfold dictGet at ih ⊢
      by_cases h : x.1 = k'
      · have : k ≠ k' := fun he => hx (h.trans he.symm)
        simp [h, this]
      · rw [List.find?_cons_of_neg (by simpa using h), List.find?_cons_of_neg (by simpa using h)]
        exact ih

theorem dictGet_lookup (d : BlockData) (k : Bytes) : dictGet d k = d.lookup k := by
  induction d with
  | nil => rfl
  | cons x d ih =>
    unfold dictGet at ih ⊢
    obtain ⟨a, b⟩ := x
    by_cases h : a = k
    · subst h
      rw [List.find?_cons_of_pos (by simp), List.lookup_cons_self]
      rfl
    · rw [List.find?_cons_of_neg (by simpa using h), List.lookup_cons, ih]
      have : (k == a) = false := by simpa using fun he => h he.symm
      rw [this]

theorem valueAt_eq (d : BlockData) (key : String) : valueAt d key = dictGet d (ascii key) := (dictGet_lookup d _).symm

theorem keyLine_inj {line k k' v v' : Bytes} (h : KeyLine line k v) (h' : KeyLine line k' v') : k = k' ∧ v = v' := by
  obtain ⟨x, h1, h2⟩ := keyLine_split h
  obtain ⟨x', h1', h2'⟩ := keyLine_split h'
  rw [h1] at h1'
  cases h1'
  exact ⟨rfl, h2.symm.trans h2'⟩

/-- "network" in a block of type "geofeed" -/
def ListKey (type key : Bytes) : Prop := type = [103, 101, 111, 102, 101, 101, 100] ∧ key = [110, 101, 116, 119, 111, 114, 107]

theorem store_get {type key : Bytes} (d : BlockData) (k value : Bytes) (hg : ¬ ListKey type key) :
    dictGet (storeLine type d k value) key = if k = key then some (.text value) else dictGet d key := by
  unfold storeLine
  by_cases hk : k = key
  · subst hk
    unfold ListKey at hg
    rw [if_neg hg, dictGet_set]
  · rw [if_neg hk]
    split <;> rw [dictGet_set, if_neg hk]

theorem readBlock_values {type : Bytes} : ∀ {block : List Bytes} {d d' : BlockData} {t' : Option Bytes}, readBlock (some type) d block = .ret (t', d') →
    t' = some type ∧ (∀ line ∈ block, 58 ∈ line) ∧ ∀ key, ¬ ListKey type key →
      (∃ pre line post value, block = pre ++ line :: post ∧ KeyLine line key value ∧ (∀ l ∈ post, ∀ v, ¬ KeyLine l key v) ∧
        dictGet d' key = some (.text value)) ∨
      ((∀ l ∈ block, ∀ v, ¬ KeyLine l key v) ∧ dictGet d' key = dictGet d key)
  | [], d, d', t', h => by
    cases h
    exact ⟨rfl, by simp, fun key _ => .inr ⟨by simp, rfl⟩⟩
  | line :: rest, d, d', t', h => by
    rw [readBlock] at h
    cases hs : splitKey line with
    | exc x => rw [hs] at h; cases h
    | ret kv =>
      obtain ⟨k, v⟩ := kv
      rw [hs] at h
      obtain ⟨h1, h2, h3⟩ := readBlock_values h
      have hk := splitKey_keyLine hs
      refine ⟨h1, ?_, fun key hg => ?_⟩
      · intro l hl
        rcases List.mem_cons.mp hl with rfl | hl
        · exact Classical.byContradiction fun hn => by rw [splitKey_none.mpr hn] at hs; cases hs
        · exact h2 l hl
      · rcases h3 key hg with ⟨pre, l, post, value, rfl, e1, e2, e3⟩ | ⟨e1, e2⟩
        · exact .inl ⟨line :: pre, l, post, value, rfl, e1, e2, e3⟩
        · rw [store_get _ _ _ hg] at e2
          by_cases he : k = key
          · subst he
            rw [if_pos rfl] at e2
            exact .inl ⟨[], line, rest, pyStrip v, rfl, hk, e1, e2⟩
          · rw [if_neg he] at e2
            refine .inr ⟨?_, e2⟩
            intro l hl v'
            rcases List.mem_cons.mp hl with rfl | hl
            · exact fun hkl => he (keyLine_inj hk hkl).1
            · exact e1 l hl v'

theorem readBlock_total {type : Option Bytes} : ∀ {block : List Bytes} {d : BlockData}, (∀ line ∈ block, 58 ∈ line) →
    ∃ r, readBlock type d block = .ret r := by
  intro block
  induction block generalizing type with
  | nil => intro d _; exact ⟨_, rfl⟩
  | cons line rest ih =>
    intro d h
    rw [readBlock]
    cases hs : splitKey line with
    | exc x =>
      exfalso
      have := h line List.mem_cons_self
      unfold splitKey at hs
      rw [if_pos (by simpa using this)] at hs
      cases hs
    | ret kv => exact ih fun l hl => h l (List.mem_cons_of_mem _ hl)

theorem readBlock_raises {type : Option Bytes} : ∀ {block : List Bytes} {d : BlockData}, (∃ line ∈ block, 58 ∉ line) →
    readBlock type d block = .exc .value := by
  intro block
  induction block generalizing type with
  | nil => rintro d ⟨_, h, -⟩; cases h
  | cons line rest ih =>
    rintro d ⟨l, hl, hn⟩
    rw [readBlock]
    cases hs : splitKey line with
    | exc x =>
      have : x = .value := by
        unfold splitKey at hs
        by_cases hc : line.contains 58 = true
        · rw [if_pos hc] at hs; cases hs
        · rw [if_neg hc] at hs; cases hs; rfl
      rw [this]
    | ret kv =>
      rcases List.mem_cons.mp hl with rfl | hl
      · rw [splitKey_none.mpr hn] at hs; cases hs
      · exact ih ⟨l, hl, hn⟩

/-! ## The lines of a dump -/

theorem not_mem_append' {x : Byte} {a b : Bytes} (ha : x ∉ a) (hb : x ∉ b) : x ∉ a ++ b := fun h =>
  (List.mem_append.mp h).elim ha hb

theorem not_mem_cons' {x c : Byte} {a : Bytes} (hc : x ≠ c) (ha : x ∉ a) : x ∉ c :: a := fun h =>
  (List.mem_cons.mp h).elim hc ha

theorem not_mem_replicate' {x c : Byte} {n : Nat} (hc : x ≠ c) : x ∉ List.replicate n c := fun h => hc (List.mem_replicate.mp h).2

/-- A key as `dump` writes it: some characters and a colon. -/
def KeyOk (k : CStr) : Prop :=
  k = k.dropLast ++ [58] ∧ 58 ∉ k.dropLast ∧ 10 ∉ k.dropLast ∧ 35 ∉ k.dropLast ∧ k.head? ≠ some 37 ∧ k.dropLast ≠ []

instance (k : CStr) : Decidable (KeyOk k) := inferInstanceAs (Decidable (_ ∧ _ ∧ _ ∧ _ ∧ _ ∧ _))

/-- A line of a dump without its end -/
def itemText (x : CStr × CStr) : Bytes :=
  if x.2 = [] then x.1 else x.1 ++ List.replicate (24 - x.1.length) 32 ++ 32 :: x.2

theorem keyOk_not_mem {k : CStr} (h : KeyOk k) : 10 ∉ k ∧ 35 ∉ k := by
  obtain ⟨h1, -, h3, h4, -, -⟩ := h
  rw [h1]
  exact ⟨not_mem_append' h3 (by decide), not_mem_append' h4 (by decide)⟩

theorem spaces_white {n : Nat} : ∀ c ∈ List.replicate n (32 : Byte), White c := by
  intro c hc
  rw [(List.mem_replicate.mp hc).2]
  decide

theorem itemText_content {k v : CStr} (hk : KeyOk k) (hv : TidyName v) : Content (dumpLine k v) (itemText (k, v)) := by
  obtain ⟨n10, n35⟩ := keyOk_not_mem hk
  obtain ⟨h1, h2, h3, h4, h5, h6⟩ := hk
  obtain ⟨v1, v2, v3⟩ := hv
  have hne : k ≠ [] := by rw [h1]; simp
  have hhead : ∀ x : Bytes, (k ++ x).head? = k.head? := by
    intro x
    cases k with
    | nil => exact absurd rfl hne
    | cons => rfl
  have h35 : k.head? ≠ some 35 := fun h => n35 (List.mem_of_mem_head? h)
  unfold dumpLine itemText
  by_cases hv0 : v = []
  · subst hv0
    simp only [if_pos]
    refine ⟨hne, ?_, ?_, n35, ?_, List.replicate (24 - k.length) 32 ++ [32, 10], [], by simp, ?_, .inl rfl⟩
    · rw [List.append_assoc, List.append_assoc, hhead]; exact h35
    · rw [List.append_assoc, List.append_assoc, hhead]; exact h5
    · intro c hc
      rw [h1, List.getLast?_append] at hc
      cases hc
      decide
    · intro c hc
      rcases List.mem_append.mp hc with hc | hc
      · exact spaces_white c hc
      · have : c = 32 ∨ c = 10 := by simpa using hc
        rcases this with rfl | rfl <;> decide
  · simp only [hv0, if_false]
    refine ⟨by simp, ?_, ?_, ?_, ?_, [10], [], by simp, ?_, .inl rfl⟩
    · rw [List.append_assoc, List.append_assoc, hhead]; exact h35
    · rw [List.append_assoc, List.append_assoc, hhead]; exact h5
    · exact not_mem_append' (not_mem_append' n35 (not_mem_replicate' (by decide))) (not_mem_cons' (by decide) v2)
    · intro c hc
      refine v3.2 c ?_
      rw [List.getLast?_append] at hc
      cases v with
      | nil => exact absurd rfl hv0
      | cons a b =>
        rw [List.getLast?_cons_cons] at hc
        rw [List.getLast?_eq_some_getLast (by simp)] at hc ⊢
        exact hc
    · intro c hc
      rw [List.mem_singleton.mp hc]
      decide

theorem itemText_key {k v : CStr} (hk : KeyOk k) (hv : TidyName v) : KeyLine (itemText (k, v)) (keyOf k) v := by
  obtain ⟨h1, h2, -⟩ := hk
  refine ⟨h2, hv.2.2, ?_⟩
  unfold itemText
  by_cases hv0 : v = []
  · subst hv0
    refine ⟨[], [], ?_, by simp, by simp⟩
    simp only [if_pos]
    exact h1
  · refine ⟨List.replicate (24 - k.length) 32 ++ [32], [], ?_, ?_, by simp⟩
    · simp only [hv0, if_false]
      generalize 24 - k.length = m
      conv => lhs; rw [h1]
      unfold keyOf
      simp
    · intro c hc
      rcases List.mem_append.mp hc with hc | hc
      · exact spaces_white c hc
      · rw [List.mem_singleton.mp hc]; decide

theorem dumpLine_lines {k v : CStr} (hk : KeyOk k) (hv : 10 ∉ v) (rest : Bytes) :
    fileLines (dumpLine k v ++ rest) = dumpLine k v :: fileLines rest := by
  have : dumpLine k v ++ rest = (k ++ List.replicate (24 - k.length) 32 ++ 32 :: v) ++ 10 :: rest := by
    unfold dumpLine; simp
  rw [this, fileLines_cons]
  · unfold dumpLine; simp
  · exact not_mem_append' (not_mem_append' (keyOk_not_mem hk).1 (not_mem_replicate' (by decide))) (not_mem_cons' (by decide) hv)

theorem iter_items : ∀ (items : List (CStr × CStr)), (∀ x ∈ items, KeyOk x.1 ∧ TidyName x.2) → ∀ (block : List Bytes) (rest : Bytes),
    iterBlocks block (fileLines ((items.flatMap fun x => dumpLine x.1 x.2) ++ rest)) = iterBlocks (block ++ items.map itemText) (fileLines rest)
  | [], _, block, rest => by simp
  | x :: items, h, block, rest => by
    obtain ⟨hk, hv⟩ := h x List.mem_cons_self
    rw [List.flatMap_cons, List.append_assoc, dumpLine_lines hk hv.1, iter_content (itemText_content hk hv),
      iter_items items (fun y hy => h y (List.mem_cons_of_mem _ hy)), List.append_assoc]
    rfl

/-- An entry of a dump -/
def entryText (items : List (CStr × CStr)) : Bytes := 10 :: items.flatMap fun x => dumpLine x.1 x.2

theorem iter_entries : ∀ (es : List (List (CStr × CStr))), (∀ items ∈ es, items ≠ [] ∧ ∀ x ∈ items, KeyOk x.1 ∧ TidyName x.2) → ∀ block : List Bytes,
    iterBlocks block (fileLines (es.flatMap entryText)) = (if block.isEmpty then [] else [block]) ++ es.map (·.map itemText)
  | [], _, block => by simp [fileLines, iterBlocks]
  | items :: es, h, block => by
    have hi := h items List.mem_cons_self
    have hne : (items.map itemText).isEmpty = false := by
      cases items with
      | nil => exact absurd rfl hi.1
      | cons => rfl
    have h10 : Blank [10] := by
      intro c hc
      rw [List.mem_singleton.mp hc]
      decide
    have hl : fileLines ((items :: es).flatMap entryText) =
        [10] :: fileLines ((items.flatMap fun x => dumpLine x.1 x.2) ++ es.flatMap entryText) := by
      rw [List.flatMap_cons]
      exact fileLines_cons (l := []) (by simp) _
    rw [hl, iter_blank h10, iter_items items hi.2, List.nil_append, iter_entries es (fun y hy => h y (List.mem_cons_of_mem _ hy)), hne]
    cases block <;> rfl

theorem dictSet_new {d : BlockData} {k : Bytes} (v : BlockValue) (h : k ∉ d.map (·.1)) : dictSet d k v = d ++ [(k, v)] := by
  induction d with
  | nil => rfl
  | cons x d ih =>
    have h1 : x.1 ≠ k := fun he => h (by rw [List.map_cons, he]; exact List.mem_cons_self)
    rw [dictSet, if_neg h1, ih (fun hm => h (List.mem_cons_of_mem _ hm))]
    rfl

/-- An item as `read_blocks` stores it -/
def itemData (x : CStr × CStr) : Bytes × BlockValue := (keyOf x.1, .text x.2)

theorem read_items {type : Bytes} (ht : type ≠ [103, 101, 111, 102, 101, 101, 100]) : ∀ (items : List (CStr × CStr)) (d : BlockData),
    (∀ x ∈ items, KeyOk x.1 ∧ TidyName x.2) → (d.map (·.1) ++ items.map fun x => keyOf x.1).Nodup →
    readBlock (some type) d (items.map itemText) = .ret (some type, d ++ items.map itemData)
  | [], d, _, _ => by simp [readBlock]
  | x :: items, d, h, hn => by
    obtain ⟨hk, hv⟩ := h x List.mem_cons_self
    obtain ⟨v, e1, e2⟩ := keyLine_split (itemText_key hk hv)
    have hnew : keyOf x.1 ∉ d.map (·.1) := by
      rw [List.nodup_append] at hn
      exact fun hm => hn.2.2 _ hm _ (by rw [List.map_cons]; exact List.mem_cons_self) rfl
    rw [List.map_cons, readBlock, e1]
    simp only [e2]
    have hst : storeLine type d (keyOf x.1) x.2 = d ++ [itemData x] := by
      unfold storeLine
      rw [if_neg (fun hc => ht hc.1), dictSet_new _ hnew]
      rfl
    rw [hst, read_items ht items _ (fun y hy => h y (List.mem_cons_of_mem _ hy))]
    · rw [List.append_assoc]; rfl
    · rw [List.map_append, List.append_assoc]
      exact hn

/-- What reading an entry gives -/
def entryData (items : List (CStr × CStr)) : Option Bytes × BlockData := (items.head?.map fun x => keyOf x.1, items.map itemData)

theorem read_entry {items : List (CStr × CStr)} (hne : items ≠ []) (h : ∀ x ∈ items, KeyOk x.1 ∧ TidyName x.2)
    (hn : (items.map fun x => keyOf x.1).Nodup) (hg : ∀ x ∈ items, keyOf x.1 ≠ [103, 101, 111, 102, 101, 101, 100]) :
    readBlock none [] (items.map itemText) = .ret (entryData items) := by
  cases items with
  | nil => exact absurd rfl hne
  | cons x items =>
    obtain ⟨hk, hv⟩ := h x List.mem_cons_self
    obtain ⟨v, e1, -⟩ := keyLine_split (itemText_key hk hv)
    have := read_items (type := keyOf x.1) (hg x List.mem_cons_self) (x :: items) [] h (by simpa using hn)
    rw [List.map_cons, readBlock, e1] at this ⊢
    exact this

theorem read_entries : ∀ (es : List (List (CStr × CStr))), (∀ items ∈ es, items ≠ [] ∧ (∀ x ∈ items, KeyOk x.1 ∧ TidyName x.2) ∧
      (items.map fun x => keyOf x.1).Nodup ∧ ∀ x ∈ items, keyOf x.1 ≠ [103, 101, 111, 102, 101, 101, 100]) →
    readBlocks (es.map (·.map itemText)) = .ret (es.map entryData)
  | [], _ => rfl
  | items :: es, h => by
    obtain ⟨h1, h2, h3, h4⟩ := h items List.mem_cons_self
    rw [List.map_cons, readBlocks, read_entry h1 h2 h3 h4, read_entries es fun y hy => h y (List.mem_cons_of_mem _ hy)]
    rfl

theorem iter_comments : ∀ (ls : List Bytes), (∀ l ∈ ls, l.head? = some 35 ∧ 10 ∉ l) → ∀ (block : List Bytes) (rest : Bytes),
    iterBlocks block (fileLines ((ls.flatMap (· ++ [10])) ++ rest)) = iterBlocks block (fileLines rest)
  | [], _, _, _ => rfl
  | l :: ls, h, block, rest => by
    obtain ⟨h1, h2⟩ := h l List.mem_cons_self
    have hl : fileLines ((l :: ls).flatMap (· ++ [10]) ++ rest) = (l ++ [10]) :: fileLines (ls.flatMap (· ++ [10]) ++ rest) := by
      rw [List.flatMap_cons, List.append_assoc, List.append_assoc]
      exact fileLines_cons h2 _
    rw [hl, iter_first (.inl (by cases l with
      | nil => cases h1
      | cons => exact h1)), iter_comments ls fun y hy => h y (List.mem_cons_of_mem _ hy)]

/-! ## The head of a dump -/

theorem splitLines_plain : ∀ (k : Nat) (s : Bytes), s.length ≤ k → ∀ cur : Bytes, 10 ∉ cur → ∀ l ∈ splitLines cur s, 10 ∉ l := by
  intro k
  induction k with
  | zero =>
    intro s hs cur hc l hl
    cases s with
    | nil =>
      rw [splitLines] at hl
      split at hl
      · cases hl
      · rw [List.mem_singleton.mp hl]; simpa using hc
    | cons => simp at hs
  | succ k ih =>
    intro s hs cur hc l hl
    cases s with
    | nil =>
      rw [splitLines] at hl
      split at hl
      · cases hl
      · rw [List.mem_singleton.mp hl]; simpa using hc
    | cons c rest =>
      have hr : rest.length ≤ k := by simpa using hs
      have step : ∀ r : Bytes, r.length ≤ k → l ∈ cur.reverse :: splitLines [] r → 10 ∉ l := by
        intro r hr hl
        rcases List.mem_cons.mp hl with rfl | hl
        · simpa using hc
        · exact ih r hr [] (by simp) l hl
      rw [splitLines.eq_def] at hl
      simp only at hl
      by_cases h13 : c = 13
      · rw [if_pos h13] at hl
        split at hl
        · exact step _ (by simp at hr; omega) hl
        · exact step _ hr hl
      · rw [if_neg h13] at hl
        by_cases hb : c = 10 ∨ c = 11 ∨ c = 12 ∨ c = 28 ∨ c = 29 ∨ c = 30
        · rw [if_pos hb] at hl
          exact step _ hr hl
        · rw [if_neg hb] at hl
          refine ih rest hr (c :: cur) ?_ l hl
          intro hm
          rcases List.mem_cons.mp hm with he | hm
          · exact hb (.inl he.symm)
          · exact hc hm

/-- The line of `dumpComment` -/
def commentLines (start : CStr) (value : Option CStr) : List Bytes :=
  match value with
  | some v => if v.isEmpty then [] else [start ++ v]
  | none => []

/-- The lines of `dumpDescription` -/
def descriptionLines (description : Option CStr) : List Bytes :=
  match description with
  | some d => if d.isEmpty then [] else ((splitLines [] d).map fun line => pyRstrip (35 :: 32 :: line)) ++ [[35]]
  | none => []

/-- The lines of the head -/
def headLines (generated : CStr) (vendor license description : Option CStr) : List Bytes :=
  [[35], (strExportOf.drop 2).take 26, [35], strGenerated ++ generated] ++ commentLines strVendor vendor ++ commentLines strLicense license ++
  [[35]] ++ descriptionLines description

theorem dumpHead_lines (generated : CStr) (vendor license description : Option CStr) :
    dumpHead generated vendor license description = (headLines generated vendor license description).flatMap (· ++ [10]) := by
  have hopt : ∀ (p : Bytes) (o : Option CStr), (commentLines p o).flatMap (· ++ [10]) = dumpComment p o := by
    intro p o
    cases o with
    | none => rfl
    | some v =>
      unfold commentLines dumpComment
      cases v with
      | nil => rfl
      | cons => simp
  have hdesc : (descriptionLines description).flatMap (· ++ [10]) = dumpDescription description := by
    cases description with
    | none => rfl
    | some d =>
      unfold descriptionLines dumpDescription
      cases d with
      | nil => rfl
      | cons => simp [List.flatMap_append, List.flatMap_map]
  unfold dumpHead headLines
  simp only [List.flatMap_append, hopt, hdesc, List.flatMap_cons, List.flatMap_nil, List.append_nil]
  rw [show strExportOf = [35] ++ [10] ++ ((strExportOf.drop 2).take 26 ++ [10]) ++ ([35] ++ [10]) from rfl]
  simp only [List.append_assoc]
  rfl

theorem headLines_ok {generated : CStr} {vendor license description : Option CStr} (hg : 10 ∉ generated)
    (hv : ∀ v, vendor = some v → 10 ∉ v) (hl : ∀ v, license = some v → 10 ∉ v) :
    ∀ l ∈ headLines generated vendor license description, l.head? = some 35 ∧ 10 ∉ l := by
  have hopt : ∀ (p : Bytes) (o : Option CStr), p.head? = some 35 → 10 ∉ p → (∀ v, o = some v → 10 ∉ v) →
      ∀ l ∈ commentLines p o, l.head? = some 35 ∧ 10 ∉ l := by
    intro p o hp1 hp2 ho l hl
    unfold commentLines at hl
    cases o with
    | none => cases hl
    | some v =>
      simp only at hl
      split at hl
      · cases hl
      · rw [List.mem_singleton.mp hl]
        refine ⟨?_, not_mem_append' hp2 (ho v rfl)⟩
        cases p with
        | nil => cases hp1
        | cons => exact hp1
  intro l hm
  unfold headLines at hm
  rcases List.mem_append.mp hm with hm | hm
  · rcases List.mem_append.mp hm with hm | hm
    · rcases List.mem_append.mp hm with hm | hm
      · rcases List.mem_append.mp hm with hm | hm
        · have : l = [35] ∨ l = (strExportOf.drop 2).take 26 ∨ l = strGenerated ++ generated := by
            simp only [List.mem_cons, List.not_mem_nil, or_false] at hm
            rcases hm with h | h | h | h
            · exact .inl h
            · exact .inr (.inl h)
            · exact .inl h
            · exact .inr (.inr h)
          rcases this with rfl | rfl | rfl
          · decide
          · decide
          · exact ⟨rfl, not_mem_append' (by decide) hg⟩
        · exact hopt strVendor vendor rfl (by decide) hv l hm
      · exact hopt strLicense license rfl (by decide) hl l hm
    · rw [List.mem_singleton.mp hm]; decide
  · unfold descriptionLines at hm
    cases description with
    | none => cases hm
    | some d =>
      simp only at hm
      split at hm
      · cases hm
      · rcases List.mem_append.mp hm with hm | hm
        · obtain ⟨line, h1, rfl⟩ := List.mem_map.mp hm
          obtain ⟨ws, h2, h3, -⟩ := rstrip_spec (35 :: 32 :: line)
          have hn := splitLines_plain _ d (Nat.le_refl _) [] (by simp) line h1
          constructor
          · cases hr : pyRstrip (35 :: 32 :: line) with
            | nil =>
              rw [hr, List.nil_append] at h2
              exact absurd (h3 35 (by rw [← h2]; exact List.mem_cons_self)) (by decide)
            | cons a b =>
              rw [hr, List.cons_append] at h2
              rw [← (List.cons.inj h2).1]
              rfl
          · intro hc
            have : (10 : Byte) ∈ 35 :: 32 :: line := by rw [h2]; exact List.mem_append_left _ hc
            exact not_mem_cons' (by decide) (not_mem_cons' (by decide) hn) this
        · rw [List.mem_singleton.mp hm]; decide

end Loc
