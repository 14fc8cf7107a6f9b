import Verif.Lemmas.TextNtop
/-
Lemmas about `loc_address_parse`.
-/
namespace Loc
open Loc.Spec

/-! ## Characters and lengths of addresses in text form -/

theorem hextet_chars {v : Nat} {s : CStr} (h : Hextet v s) : s.length ≤ 4 ∧ ∀ c ∈ s, hexVal c ≠ none := by
  obtain ⟨ds, h1, -, h3, -⟩ := h
  rw [List.map_congr_left (fun c _ => anyDigitOf_eq c)] at h1
  refine ⟨by rw [map_some_length h1]; exact h3, ?_⟩
  intro c hc hn
  have : (none : Option Nat) ∈ s.map hexVal := List.mem_map.mpr ⟨c, hc, hn⟩
  rw [h1] at this
  simp at this

theorem numeral_chars {k : Nat} {s : CStr} (h : Numeral 10 k s) : ∀ c ∈ s, decVal c ≠ none := by
  obtain ⟨ds, h1, h2, -⟩ := h
  have h1 := digits_dec.mp ⟨h1, h2⟩
  intro c hc hn
  have : (none : Option Nat) ∈ s.map decVal := List.mem_map.mpr ⟨c, hc, hn⟩
  rw [h1] at this
  simp at this

theorem ipv4_chars {s : CStr} {l : List Byte} (h : IPv4Text s l) : s.length ≤ 15 ∧ ∀ c ∈ s, c = 46 ∨ decVal c ≠ none := by
  obtain ⟨a, b, c, d, sa, sb, sc, sd, na, nb, nc, nd, ha, hb, hc, hd, rfl, -⟩ := h
  have la := numeral_length (m := 3) na (by omega) (by decide)
  have lb := numeral_length (m := 3) nb (by omega) (by decide)
  have lc := numeral_length (m := 3) nc (by omega) (by decide)
  have ld := numeral_length (m := 3) nd (by omega) (by decide)
  constructor
  · simp only [List.length_append, List.length_cons]
    omega
  · intro x hx
    simp only [List.mem_append, List.mem_cons] at hx
    have := numeral_chars na x
    have := numeral_chars nb x
    have := numeral_chars nc x
    have := numeral_chars nd x
    tauto

theorem groups_chars {s : CStr} {l : List Byte} (h : Groups s l) : 2 * (s.length + 1) ≤ 5 * l.length + 12 ∧ ∀ c ∈ s, c = 46 ∨ c = 58 ∨ hexVal c ≠ none := by
  induction h with
  | last h =>
    obtain ⟨h1, h2⟩ := hextet_chars h
    exact ⟨by simp only [octets16, List.length_cons, List.length_nil]; omega, fun c hc => .inr (.inr (h2 c hc))⟩
  | quad h =>
    obtain ⟨h1, h2⟩ := ipv4_chars h
    refine ⟨by rw [ipv4_length h]; omega, fun c hc => ?_⟩
    rcases h2 c hc with h3 | h3
    · exact .inl h3
    · obtain ⟨d, hd⟩ := Option.ne_none_iff_exists'.mp h3
      rw [decVal_hex hd]
      simp
  | cons hh _ ih =>
    obtain ⟨h1, h2⟩ := hextet_chars hh
    constructor
    · simp only [octets16, List.length_cons, List.length_nil, List.length_append]
      have := ih.1
      omega
    · intro c hc
      simp only [List.mem_append, List.mem_cons] at hc
      rcases hc with hc | hc | hc
      · exact .inr (.inr (h2 c hc))
      · exact .inr (.inl hc)
      · exact ih.2 c hc

theorem front_chars {s : CStr} {l : List Byte} (h : Front s l) : 2 * s.length ≤ 5 * l.length ∧ ∀ c ∈ s, c = 46 ∨ c = 58 ∨ hexVal c ≠ none := by
  induction h with
  | nil => simp
  | cons hh _ ih =>
    obtain ⟨h1, h2⟩ := hextet_chars hh
    constructor
    · simp only [octets16, List.length_cons, List.length_nil, List.length_append]
      have := ih.1
      omega
    · intro c hc
      simp only [List.mem_append, List.mem_cons] at hc
      rcases hc with hc | hc | hc
      · exact .inr (.inr (h2 c hc))
      · exact .inr (.inl hc)
      · exact ih.2 c hc

theorem ipv6_chars {s : CStr} {l : List Byte} (h : IPv6Text s l) : s.length ≤ 45 ∧ l.length = 16 ∧ 58 ∈ s ∧ ∀ c ∈ s, c = 46 ∨ c = 58 ∨ hexVal c ≠ none := by
  cases h with
  | full h hl =>
    obtain ⟨h1, h2⟩ := groups_chars h
    refine ⟨by omega, hl, ?_, h2⟩
    cases h with
    | last h => simp [octets16] at hl
    | quad h =>
      rw [ipv4_length h] at hl
      cases hl
    | cons => simp
  | @short s t f b hf hb hl =>
    obtain ⟨f1, f2⟩ := front_chars hf
    have hbl : 2 * t.length ≤ 5 * b.length + 10 ∧ ∀ c ∈ t, c = 46 ∨ c = 58 ∨ hexVal c ≠ none := by
      rcases hb with ⟨rfl, rfl⟩ | hb
      · simp
      · obtain ⟨h1, h2⟩ := groups_chars hb
        exact ⟨by omega, h2⟩
    refine ⟨?_, ?_, by simp, ?_⟩
    · rw [List.length_append, List.length_cons]
      by_cases hs : s = []
      · rw [if_pos hs]
        simp only [List.length_cons, List.length_nil]
        omega
      · rw [if_neg hs]
        omega
    · simp only [List.length_append, List.length_replicate]
      omega
    · intro c hc
      rw [List.mem_append, List.mem_cons] at hc
      rcases hc with hc | hc | hc
      · by_cases hs : s = []
        · rw [if_pos hs, List.mem_singleton] at hc
          exact .inr (.inl hc)
        · rw [if_neg hs] at hc
          exact f2 c hc
      · exact .inr (.inl hc)
      · exact hbl.2 c hc

/-- No text is an address of both families. -/
theorem text_disjoint {s : CStr} {l m : List Byte} (h4 : IPv4Text s l) (h6 : IPv6Text s m) : False := by
  rcases (ipv4_chars h4).2 58 (ipv6_chars h6).2.2.1 with h | h
  · revert h
    decide
  · exact h rfl

/-! ## The address part -/

theorem toAddr_iff {l : List Byte} {a : Addr} : toAddr l = some a ↔ a.toList = l := by
  unfold toAddr
  constructor
  · intro h
    split at h
    · have := Option.some.inj h
      rw [← this]
      rfl
    · cases h
  · rintro rfl
    rw [dif_pos (by simp)]
    rfl

theorem parseText_inet6 {s : CStr} {a : Addr} : parseText s = some (a, .inet6) ↔ IPv6Text s a.toList := by
  unfold parseText
  constructor
  · intro h
    split at h
    · rename_i b hb
      simp only [Option.some.injEq, Prod.mk.injEq, and_true] at h
      subst h
      rw [Option.bind_eq_some_iff] at hb
      obtain ⟨l, h1, h2⟩ := hb
      rw [toAddr_iff.mp h2]
      exact pton6_iff.mp h1
    · split at h <;> simp at h
  · intro h
    rw [show (pton6 s).bind toAddr = some a from Option.bind_eq_some_iff.mpr ⟨_, pton6_iff.mpr h, toAddr_iff.mpr rfl⟩]

theorem parseText_inet {s : CStr} {a : Addr} : parseText s = some (a, .inet) ↔
    ∃ l, IPv4Text s l ∧ a.toList = [0,0,0,0, 0,0,0,0, 0,0,0xff,0xff] ++ l := by
  unfold parseText
  constructor
  · intro h
    split at h
    · simp at h
    · split at h
      · rename_i b hb
        simp only [Option.some.injEq, Prod.mk.injEq, and_true] at h
        subst h
        rw [Option.bind_eq_some_iff] at hb
        obtain ⟨l, h1, h2⟩ := hb
        exact ⟨l, pton4_iff.mp h1, toAddr_iff.mp h2⟩
      · cases h
  · rintro ⟨l, h1, h2⟩
    have h6 : (pton6 s).bind toAddr = none := by
      rw [Option.bind_eq_none_iff]
      intro m hm
      exact (text_disjoint h1 (pton6_iff.mp hm)).elim
    rw [h6]
    simp only
    rw [show (pton4 s).bind (fun l => toAddr ([0,0,0,0, 0,0,0,0, 0,0,0xff,0xff] ++ l)) = some a from
      Option.bind_eq_some_iff.mpr ⟨l, pton4_iff.mpr h1, toAddr_iff.mpr h2⟩]

theorem parseText_iff {s : CStr} {a : Addr} : (∃ f, parseText s = some (a, f)) ↔ Denotes s a := by
  unfold Denotes
  rw [← parseText_inet6, ← parseText_inet]
  constructor
  · rintro ⟨f, h⟩
    cases f with
    | inet => exact .inr h
    | inet6 => exact .inl h
  · rintro (h | h)
    · exact ⟨_, h⟩
    · exact ⟨_, h⟩

/-- The largest prefix -/
theorem parseText_largest {s : CStr} {a : Addr} {f : Family} (h : parseText s = some (a, f)) (m : Nat) : LargestPrefix s m ↔ m = familyBitLength f := by
  unfold LargestPrefix
  cases f with
  | inet =>
    obtain ⟨l, h1, -⟩ := parseText_inet.mp h
    constructor
    · rintro (⟨⟨l', h'⟩, -⟩ | ⟨-, h'⟩)
      · exact (text_disjoint h1 h').elim
      · exact h'
    · intro h'
      exact .inr ⟨⟨l, h1⟩, h'⟩
  | inet6 =>
    have h1 := parseText_inet6.mp h
    constructor
    · rintro (⟨-, h'⟩ | ⟨⟨l', h'⟩, -⟩)
      · exact h'
      · exact (text_disjoint h' h1).elim
    · intro h'
      exact .inl ⟨⟨_, h1⟩, h'⟩

theorem parseText_length {s : CStr} {r : Addr × Family} (h : parseText s = some r) : s.length ≤ 45 := by
  obtain ⟨a, f⟩ := r
  cases f with
  | inet =>
    obtain ⟨l, h1, -⟩ := parseText_inet.mp h
    have := (ipv4_chars h1).1
    omega
  | inet6 => exact (ipv6_chars (parseText_inet6.mp h)).1

theorem takeWhile_take (p : Byte → Bool) (n : Nat) (s : CStr) : (s.take n).takeWhile p = (s.takeWhile p).take n := by
  induction s generalizing n with
  | nil => simp
  | cons c s ih =>
    cases n with
    | zero => simp
    | succ n =>
      simp only [List.take_succ_cons, List.takeWhile_cons]
      split
      · simp [ih]
      · simp

/-- The copy into the buffer does not change which addresses are recognised. -/
theorem parseText_buffer (s : CStr) : parseText ((s.take 48).takeWhile (· != 47)) = parseText (s.takeWhile (· != 47)) := by
  rw [takeWhile_take]
  by_cases h : (s.takeWhile (· != 47)).length ≤ 48
  · rw [List.take_of_length_le h]
  · have h1 : parseText (s.takeWhile (· != 47)) = none := by
      cases hp : parseText (s.takeWhile (· != 47)) with
      | none => rfl
      | some r =>
        have := parseText_length hp
        omega
    have h2 : parseText ((s.takeWhile (· != 47)).take 48) = none := by
      cases hp : parseText ((s.takeWhile (· != 47)).take 48) with
      | none => rfl
      | some r =>
        have := parseText_length hp
        rw [List.length_take] at this
        omega
    rw [h1, h2]

/-! ## The prefix -/

theorem digitsVal_eq {s : CStr} {ds : List Nat} (h : s.map decVal = ds.map some) (acc : Nat) : digitsVal acc s = more 10 acc ds := by
  induction s generalizing ds acc with
  | nil =>
    cases ds with
    | nil => rfl
    | cons => simp at h
  | cons c s ih =>
    cases ds with
    | nil => simp at h
    | cons d ds =>
      simp only [List.map_cons, List.cons.injEq] at h
      rw [digitsVal, h.1]
      exact ih h.2 _

theorem digit_char (c : Byte) (h : decVal c ≠ none) : isSpace c = false ∧ c ≠ 45 ∧ c ≠ 43 := by
  revert h
  exact forall_byte (P := fun c => decVal c ≠ none → isSpace c = false ∧ c ≠ 45 ∧ c ≠ 43) (by decide +kernel) c

theorem strtol_digits {k : Nat} {s : CStr} (h : Digits k s) : strtol s = min (k : Int) (2 ^ 63 - 1) := by
  obtain ⟨ds, h1, h2, h3, h4⟩ := h
  have h5 := digits_dec.mp ⟨h1, h2⟩
  have h6 := digitsVal_eq h5 0
  have h7 : more 10 0 ds = k := h4
  cases s with
  | nil =>
    cases ds with
    | nil => exact absurd rfl h3
    | cons => simp at h1
  | cons c s =>
    have hc : decVal c ≠ none := by
      cases ds with
      | nil => exact absurd rfl h3
      | cons d ds =>
        simp only [List.map_cons, List.cons.injEq] at h5
        rw [h5.1]
        simp
    obtain ⟨c1, c2, c3⟩ := digit_char c hc
    unfold strtol
    rw [List.dropWhile_cons, c1]
    simp only [Bool.false_eq_true, ↓reduceIte, beq_iff_eq, c2, c3]
    rw [h6, h7]

theorem toUInt_small {k : Nat} (h : k < 2 ^ 32) : toUInt (min (k : Int) (2 ^ 63 - 1)) = k := by
  unfold toUInt
  omega

theorem numeral_digits {k : Nat} {s : CStr} (h : Numeral 10 k s) : Digits k s := by
  obtain ⟨ds, h1, h2, h3, -, h5⟩ := h
  exact ⟨ds, h1, h2, h3, h5⟩

theorem slash_split {t d : CStr} (ht : 47 ∉ t) : (t ++ 47 :: d).takeWhile (· != 47) = t ∧ (t ++ 47 :: d).dropWhile (· != 47) = 47 :: d := by
  have h : ∀ c ∈ t, (c != 47) = true := by
    intro c hc
    simp only [bne_iff_ne, ne_eq]
    rintro rfl
    exact ht hc
  constructor
  · rw [List.takeWhile_append_of_pos h]
    simp
  · rw [List.dropWhile_append_of_pos h]
    simp

theorem text_no_slash {s : CStr} {a : Addr} (h : Denotes s a) : 47 ∉ s := by
  intro hc
  rcases h with h | ⟨l, h, -⟩
  · rcases (ipv6_chars h).2.2.2 47 hc with h | h | h
    · revert h; decide
    · revert h; decide
    · exact h rfl
  · rcases (ipv4_chars h).2 47 hc with h | h
    · revert h; decide
    · exact h rfl

/-- The text of an address denotes it. -/
theorem addrText_denotes (a : Addr) : parseText (addrText a) = some (a, addrFamily a) := by
  unfold addrText addrFamily
  cases hv : isV4Mapped a with
  | false => exact parseText_inet6.mpr (ntop6_text a)
  | true =>
    refine parseText_inet.mpr ⟨_, ntop4_text _ _ _ _, ?_⟩
    rw [← bytesFrom_all]
    simp only [bytesFrom, octets16_word, List.append_nil, List.cons_append, List.nil_append, Nat.reduceMul, Nat.reduceAdd]
    unfold isV4Mapped at hv
    simp only [Bool.and_eq_true, beq_iff_eq, List.all_eq_true, List.mem_range] at hv
    obtain ⟨h, h10, h11⟩ := hv
    simp [h 0 (by decide), h 1 (by decide), h 2 (by decide), h 3 (by decide), h 4 (by decide), h 5 (by decide), h 6 (by decide), h 7 (by decide),
      h 8 (by decide), h 9 (by decide), h10, h11]

end Loc
