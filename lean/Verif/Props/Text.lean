import Verif.Lemmas.TextParse
import Verif.Lemmas.Reverse
import Verif.Props.Network
import Mathlib.Data.List.TakeWhile
/-
C31-C34: reverse pointers, formatted addresses, parsing, network strings.
-/
namespace Loc.Props
open Loc Loc.Spec

/-! ## C31 -/

/-- C31, IPv6: networks on a nibble boundary have the name made of the hexadecimal digits of the
    nibbles of the network part in reverse order, preceded by `*` unless the network is a host, and
    followed by the suffix.  Other networks have none. -/
theorem reverse_pointer_inet6 {n : Network} (hb : Block n) (hf : n.family = .inet6) (suffix : Option CStr) :
    (n.pfx % 4 ≠ 0 → reversePointer n suffix = .error (.err ENOTSUP)) ∧
    (n.pfx % 4 = 0 → ∃ labels : List CStr, labels.length = n.pfx / 4 ∧ (∀ i l, labels[i]? = some l → Numeral 16 (nibbleAt n.first i) l) ∧
      reversePointer n suffix = .ok (dotted (wildcard n ++ labels.reverse) ++ suffix.getD ip6Arpa)) := by
  rw [reverse6 hb hf]
  constructor
  · intro h
    rw [if_neg h]
  · intro h
    rw [if_pos h]
    refine ⟨_, by simp [nibbleLabels], ?_, rfl⟩
    intro i l hl
    simp only [nibbleLabels, List.getElem?_map, Option.map_eq_some_iff] at hl
    obtain ⟨j, h1, h2⟩ := hl
    rw [List.getElem?_eq_some_iff] at h1
    obtain ⟨h1, h3⟩ := h1
    rw [List.getElem_range] at h3
    subst h3 h2
    exact hexStr_numeral (by have := nibbleAt_lt n.first i; omega)

/-- C31, IPv4: the same for networks on an octet boundary and decimal numbers. -/
theorem reverse_pointer_inet {n : Network} (hb : Block n) (hf : n.family = .inet) (suffix : Option CStr) :
    (n.pfx % 8 ≠ 0 → reversePointer n suffix = .error (.err ENOTSUP)) ∧
    (n.pfx % 8 = 0 → ∃ labels : List CStr, labels.length = netPrefix n / 8 ∧ (∀ i l, labels[i]? = some l → Numeral 10 (octet4At n.first i) l) ∧
      reversePointer n suffix = .ok (dotted (wildcard n ++ labels.reverse) ++ suffix.getD inAddrArpa)) := by
  rw [reverse4 hb hf]
  constructor
  · intro h
    rw [if_neg h]
  · intro h
    rw [if_pos h]
    refine ⟨_, by simp [octetLabels, netPrefix, hf], ?_, rfl⟩
    intro i l hl
    simp only [octetLabels, List.getElem?_map, Option.map_eq_some_iff] at hl
    obtain ⟨j, h1, h2⟩ := hl
    rw [List.getElem?_eq_some_iff] at h1
    obtain ⟨h1, h3⟩ := h1
    rw [List.getElem_range] at h3
    subst h3 h2
    exact decStr_numeral (by have := octet4At_lt n.first i; omega)

/-- C31: different networks of a family have different names, for every suffix. -/
theorem reverse_pointer_injective {m n : Network} (hm : Block m) (hn : Block n) (hf : m.family = n.family) (suffix : Option CStr) (s : CStr)
    (h1 : reversePointer m suffix = .ok s) (h2 : reversePointer n suffix = .ok s) : SameBlock m n := by
  cases h : n.family with
  | inet6 =>
    rw [h] at hf
    rw [reverse6 hm hf] at h1
    rw [reverse6 hn h] at h2
    by_cases p1 : m.pfx % 4 = 0
    · by_cases p2 : n.pfx % 4 = 0
      · rw [if_pos p1] at h1
        rw [if_pos p2] at h2
        simp only [Except.ok.injEq] at h1 h2
        have he := List.append_cancel_right (h1.trans h2.symm)
        have hnum : ∀ (a : Addr) (k : Nat), ∀ l ∈ nibbleLabels a k, ∃ v, Numeral 16 v l := by
          intro a k l hl
          simp only [nibbleLabels, List.mem_map] at hl
          obtain ⟨i, -, rfl⟩ := hl
          exact ⟨_, hexStr_numeral (by have := nibbleAt_lt a i; omega)⟩
        obtain ⟨e1, e2⟩ := map_range_inj (labels_inj (hnum _ _) (hnum _ _) he)
        have hp : m.pfx = n.pfx := by omega
        refine ⟨?_, hp⟩
        have l1 := hm.le
        have key := nibbles_value (a := m.first) (b := n.first) (m.pfx / 4) (by omega) (by
          intro i hi
          have h3 := e2 i hi
          have h4 := hexStr_numeral (n := nibbleAt m.first i) (by have := nibbleAt_lt m.first i; omega)
          rw [h3] at h4
          exact numeral_inj h4 (hexStr_numeral (by have := nibbleAt_lt n.first i; omega)))
        rw [show 128 - 4 * (m.pfx / 4) = 128 - m.pfx by omega] at key
        have a1 := hm.aligned
        have a2 := hn.aligned
        rw [← hp] at a2
        exact aligned_inj (Nat.two_pow_pos _) a1 a2 key
      · rw [if_neg p2] at h2
        cases h2
    · rw [if_neg p1] at h1
      cases h1
  | inet =>
    rw [h] at hf
    have v1 := hm.fam.mp hf
    have v2 := hn.fam.mp h
    have q1 := pfx_v4 hm v1
    have q2 := pfx_v4 hn v2
    rw [reverse4 hm hf] at h1
    rw [reverse4 hn h] at h2
    by_cases p1 : m.pfx % 8 = 0
    · by_cases p2 : n.pfx % 8 = 0
      · rw [if_pos p1] at h1
        rw [if_pos p2] at h2
        simp only [Except.ok.injEq] at h1 h2
        have he := List.append_cancel_right (h1.trans h2.symm)
        have hnum : ∀ (a : Addr) (k : Nat), ∀ l ∈ octetLabels a k, ∃ v, Numeral 10 v l := by
          intro a k l hl
          simp only [octetLabels, List.mem_map] at hl
          obtain ⟨i, -, rfl⟩ := hl
          exact ⟨_, decStr_numeral (by have := octet4At_lt a i; omega)⟩
        obtain ⟨e1, e2⟩ := map_range_inj (labels_inj (hnum _ _) (hnum _ _) he)
        have hp : m.pfx = n.pfx := by omega
        refine ⟨?_, hp⟩
        have l1 := hm.le
        have key := octets_value v1 v2 ((m.pfx - 96) / 8) (by omega) (by
          intro i hi
          have h3 := e2 i hi
          have h4 := decStr_numeral (n := octet4At m.first i) (by have := octet4At_lt m.first i; omega)
          rw [h3] at h4
          exact numeral_inj h4 (decStr_numeral (by have := octet4At_lt n.first i; omega)))
        rw [show 32 - 8 * ((m.pfx - 96) / 8) = 128 - m.pfx by omega] at key
        have a1 := hm.aligned
        have a2 := hn.aligned
        rw [← hp] at a2
        exact aligned_inj (Nat.two_pow_pos _) a1 a2 key
      · rw [if_neg p2] at h2
        cases h2
    · rw [if_neg p1] at h1
      cases h1

/-- "*.2.10.in-addr.arpa." for 10.2.0.0/16 and "8.b.d.0.1.0.0.2." in front of the suffix "x" for
    the first 32 bits of 2001:db8::/32 -/
example : reversePointer (mk4 (ip4 10 2 0 0) (ip4 10 2 255 255) 16) none = .ok ([42, 46, 50, 46, 49, 48, 46] ++ inAddrArpa) ∧
    Block (mk4 (ip4 10 2 0 0) (ip4 10 2 255 255) 16) ∧
    reversePointer ⟨.inet6, #v[0x20,0x01,0x0d,0xb8, 0,0,0,0, 0,0,0,0, 0,0,0,0], #v[0x20,0x01,0x0d,0xb8, 255,255,255,255, 255,255,255,255, 255,255,255,255],
      32, 0, 0, 0, 0⟩ (some [120]) = .ok [42, 46, 56, 46, 98, 46, 100, 46, 48, 46, 49, 46, 48, 46, 48, 46, 50, 46, 120] := by
  decide +kernel

/-! ## C32 -/

theorem addressStr_spec {st : FmtState} (hi : st.idx < 6) (a : Addr) :
    addressStr st (some a) = .ok (⟨st.bufs.set st.idx (addrText a), (st.idx + 1) % 6⟩, some st.idx) := by
  unfold addressStr
  simp only
  rw [dif_pos hi]
  have hl := addrText_length a
  unfold fitted INET6_ADDRSTRLEN
  rw [if_neg (by omega)]

/-- Any sequence of calls succeeds, moves the index on, and leaves the buffers behind it alone. -/
theorem fmtRun_spec : ∀ (as : List (Option Addr)) (st : FmtState), st.idx < 6 → ∃ st', fmtRun st as = .ok st' ∧
    st'.idx = (st.idx + (as.filter Option.isSome).length) % 6 ∧
    ∀ j, (as.filter Option.isSome).length ≤ j → j < 6 → st'.bufs[(st.idx + j) % 6]? = st.bufs[(st.idx + j) % 6]? := by
  intro as
  induction as with
  | nil =>
    intro st hi
    exact ⟨st, rfl, by simp; omega, fun j _ _ => rfl⟩
  | cons a as ih =>
    intro st hi
    cases a with
    | none =>
      obtain ⟨st', h1, h2, h3⟩ := ih st hi
      exact ⟨st', by rw [fmtRun]; exact h1, by simpa using h2, by simpa using h3⟩
    | some a =>
      have h0 := addressStr_spec hi a
      obtain ⟨st', h1, h2, h3⟩ := ih ⟨st.bufs.set st.idx (addrText a), (st.idx + 1) % 6⟩ (Nat.mod_lt _ (by decide))
      simp only [List.filter_cons, Option.isSome_some, ↓reduceIte, List.length_cons] at h2 h3 ⊢
      refine ⟨st', ?_, by rw [h2]; omega, ?_⟩
      · rw [fmtRun, h0]
        exact h1
      · intro j j1 j2
        have h4 := h3 (j - 1) (by omega) (by omega)
        rw [show ((st.idx + 1) % 6 + (j - 1)) % 6 = (st.idx + j) % 6 by omega] at h4
        rw [h4, Vector.getElem?_set, if_neg (by omega)]

/-- C32: after any history, the string returned for an address is a text of this address, and after
    any further calls of which at most five format an address it is still in the same buffer. -/
theorem string_stays_valid (pre post : List (Option Addr)) (a : Addr) (h : (post.filter Option.isSome).length ≤ 5) :
    ∃ st st1 b st2 s, fmtRun fmtInit pre = .ok st ∧ addressStr st (some a) = .ok (st1, some b) ∧ fmtRun st1 post = .ok st2 ∧
      Denotes s a ∧ st1.bufs[b]? = some s ∧ st2.bufs[b]? = some s := by
  obtain ⟨st, h1, h2, -⟩ := fmtRun_spec pre fmtInit (by decide)
  have hi : st.idx < 6 := by rw [h2]; exact Nat.mod_lt _ (by decide)
  have h3 := addressStr_spec hi a
  obtain ⟨st2, h4, -, h5⟩ := fmtRun_spec post ⟨st.bufs.set st.idx (addrText a), (st.idx + 1) % 6⟩ (Nat.mod_lt _ (by decide))
  have h6 : (st.bufs.set st.idx (addrText a))[st.idx]? = some (addrText a) := by
    rw [Vector.getElem?_set, if_pos rfl]
  refine ⟨st, _, st.idx, st2, addrText a, h1, h3, h4, parseText_iff.mp ⟨_, addrText_denotes a⟩, h6, ?_⟩
  have h7 := h5 5 h (by decide)
  simp only at h7
  rw [show ((st.idx + 1) % 6 + 5) % 6 = st.idx by omega] at h7
  rw [h7, h6]

/-- C32: the sixth call overwrites it. -/
theorem string_overwritten (pre mid : List (Option Addr)) (a c : Addr) (h : (mid.filter Option.isSome).length = 5) :
    ∃ st st1 b st2 s, fmtRun fmtInit pre = .ok st ∧ addressStr st (some a) = .ok (st1, some b) ∧ fmtRun st1 (mid ++ [some c]) = .ok st2 ∧
      Denotes s c ∧ st2.bufs[b]? = some s := by
  obtain ⟨st, h1, h2, -⟩ := fmtRun_spec pre fmtInit (by decide)
  have hi : st.idx < 6 := by rw [h2]; exact Nat.mod_lt _ (by decide)
  have h3 := addressStr_spec hi a
  obtain ⟨sm, h4, h5, -⟩ := fmtRun_spec mid ⟨st.bufs.set st.idx (addrText a), (st.idx + 1) % 6⟩ (Nat.mod_lt _ (by decide))
  have him : sm.idx = st.idx := by rw [h5, h]; simp only; omega
  have h6 := addressStr_spec (st := sm) (by omega) c
  have happ : ∀ (l : List (Option Addr)) (s : FmtState) (x : Option Addr), fmtRun s (l ++ [x]) = (fmtRun s l).bind (fun s' => fmtRun s' [x]) := by
    intro l
    induction l with
    | nil => intro s x; rfl
    | cons y l ih =>
      intro s x
      rw [List.cons_append, fmtRun, fmtRun]
      cases addressStr s y with
      | error e => rfl
      | ok r => exact ih r.1 x
  refine ⟨st, _, st.idx, ⟨sm.bufs.set sm.idx (addrText c) (by omega), (sm.idx + 1) % 6⟩, addrText c, h1, h3, ?_,
    parseText_iff.mp ⟨_, addrText_denotes c⟩, ?_⟩
  · rw [happ, h4]
    simp only [Except.bind, fmtRun, h6, bind]
  · simp only
    rw [Vector.getElem?_set, if_pos him]

/-- Five calls after the history of two: 10.0.0.1 is still there. -/
example : ∃ st st1 b st2 s, fmtRun fmtInit [some (ip4 1 2 3 4), none] = .ok st ∧ addressStr st (some (ip4 10 0 0 1)) = .ok (st1, some b) ∧
    fmtRun st1 (List.replicate 5 (some (ip4 9 9 9 9))) = .ok st2 ∧ Denotes s (ip4 10 0 0 1) ∧ st1.bufs[b]? = some s ∧ st2.bufs[b]? = some s :=
  string_stays_valid _ _ _ (by decide)

/-! ## C33 -/

/-- C33: a string is accepted exactly if the part before the first slash is an IPv6 or IPv4 address
    in text form; the address is the one it denotes. -/
theorem parse_accepts_iff (s : CStr) (a : Addr) : addressParse false (some s) = .ok (a, none) ↔ Denotes (beforeSlash s) a := by
  unfold addressParse beforeSlash
  simp only
  rw [parseText_buffer, ← parseText_iff]
  cases parseText (s.takeWhile (· != 47)) with
  | none => simp
  | some r =>
    obtain ⟨b, f⟩ := r
    simp

/-- C33: every other string (and a null pointer) is refused with `EINVAL`, with and without prefix;
    nothing else can go wrong. -/
theorem parse_refuses (wantPrefix : Bool) (s : Option CStr) :
    (∀ e, addressParse wantPrefix s = .error e → e = .err EINVAL) ∧
    (∀ t, s = some t → (∀ a, ¬ Denotes (beforeSlash t) a) → addressParse wantPrefix s = .error (.err EINVAL)) ∧
    (∀ a p, addressParse wantPrefix s = .ok (a, p) → ∃ t, s = some t ∧ Denotes (beforeSlash t) a) := by
  cases s with
  | none => exact ⟨fun e h => by cases h; rfl, fun t h => (by cases h), fun a p h => (by cases h)⟩
  | some s =>
    unfold addressParse beforeSlash
    simp only [parseText_buffer]
    simp only [← parseText_iff]
    cases hp : parseText (s.takeWhile (· != 47)) with
    | none =>
      refine ⟨fun e h => ?_, fun t _ _ => rfl, fun a p h => (by cases h)⟩
      cases h
      rfl
    | some r =>
      obtain ⟨b, f⟩ := r
      simp only
      refine ⟨?_, ?_, ?_⟩
      · intro e h
        split at h
        · cases h
        · split at h
          · cases h
          · split at h
            · cases h
              rfl
            · cases h
      · intro t ht hn
        simp only [Option.some.injEq] at ht
        subst ht
        exact absurd ⟨f, hp⟩ (hn b)
      · intro a p h
        refine ⟨s, rfl, f, ?_⟩
        rw [hp]
        split at h
        · simp only [Except.ok.injEq, Prod.mk.injEq] at h
          rw [h.1]
        · split at h
          · simp only [Except.ok.injEq, Prod.mk.injEq] at h
            rw [h.1]
          · split at h
            · cases h
            · simp only [Except.ok.injEq, Prod.mk.injEq] at h
              rw [h.1]

/-- C33: without slash the prefix is the full length of the family in whose text form the address
    was written. -/
theorem parse_default_prefix (s : CStr) (hs : 47 ∉ s) (a : Addr) (p : Nat) :
    addressParse true (some s) = .ok (a, some p) ↔ Denotes s a ∧ LargestPrefix s p := by
  have h1 : s.takeWhile (· != 47) = s := by
    rw [List.takeWhile_eq_self_iff]
    intro c hc
    simp only [bne_iff_ne, ne_eq]
    rintro rfl
    exact hs hc
  have h2 : (s.take 48).dropWhile (· != 47) = [] := by
    rw [List.dropWhile_eq_nil_iff]
    intro c hc
    simp only [bne_iff_ne, ne_eq]
    rintro rfl
    exact hs (List.mem_of_mem_take hc)
  unfold addressParse
  simp only
  rw [parseText_buffer, h1, h2, ← parseText_iff]
  cases hp : parseText s with
  | none => simp
  | some r =>
    obtain ⟨b, f⟩ := r
    simp only [List.tail?_nil, Bool.not_true, Bool.false_eq_true, ↓reduceIte, Except.ok.injEq, Prod.mk.injEq, Option.some.injEq,
      parseText_largest hp]
    constructor
    · rintro ⟨rfl, rfl⟩
      exact ⟨⟨f, rfl, rfl⟩, rfl⟩
    · rintro ⟨⟨_, h, _⟩, rfl⟩
      exact ⟨h, rfl⟩

/-- C33, restricted to strings of at most 48 characters and to numbers below 2^32: with a slash
    followed by a decimal number this number is the prefix, and numbers above the largest prefix are
    refused.  Missing: longer strings and larger numbers, for which this is false (see
    `parse_violated_wrap` and `parse_violated_long`). -/
theorem parse_prefix_partial (t d : CStr) (k : Nat) (ht : 47 ∉ t) (hd : Digits k d) (hl : (t ++ 47 :: d).length ≤ 48) (hk : k < 2 ^ 32)
    (a : Addr) (p : Nat) :
    addressParse true (some (t ++ 47 :: d)) = .ok (a, some p) ↔ Denotes t a ∧ p = k ∧ ∃ m, LargestPrefix t m ∧ k ≤ m := by
  obtain ⟨h1, h2⟩ := slash_split (d := d) ht
  unfold addressParse
  simp only
  rw [parseText_buffer, h1, List.take_of_length_le hl, h2, ← parseText_iff]
  cases hp : parseText t with
  | none => simp
  | some r =>
    obtain ⟨b, f⟩ := r
    simp only [List.tail?_cons, Bool.not_true, Bool.false_eq_true, ↓reduceIte, strtol_digits hd, toUInt_small hk, parseText_largest hp,
      exists_eq_left]
    by_cases hm : k > familyBitLength f
    · rw [if_pos hm]
      constructor
      · intro h
        cases h
      · rintro ⟨-, -, h⟩
        omega
    · rw [if_neg hm]
      simp only [Except.ok.injEq, Prod.mk.injEq, Option.some.injEq]
      constructor
      · rintro ⟨rfl, rfl⟩
        exact ⟨⟨f, rfl, rfl⟩, rfl, by omega⟩
      · rintro ⟨⟨_, h, _⟩, rfl, _⟩
        exact ⟨h, rfl⟩

/-- "10.0.0.0" -/
def ten : CStr := [49, 48, 46, 48, 46, 48, 46, 48]

/-- "10.0.0.0/8" is parsed, "10.0.0.0/33" and "10.0.0/8" are refused, "::1" has prefix 128. -/
example : addressParse true (some (ten ++ [47, 56])) = .ok (ip4 10 0 0 0, some 8) ∧
    addressParse true (some (ten ++ [47, 51, 51])) = .error (.err EINVAL) ∧
    addressParse true (some [49, 48, 46, 48, 46, 48, 47, 56]) = .error (.err EINVAL) ∧
    addressParse true (some [58, 58, 49]) = .ok (#v[0,0,0,0, 0,0,0,0, 0,0,0,0, 0,0,0,1], some 128) := by
  decide +kernel

/-- C33 violated: the number is reduced modulo 2^32, so "10.0.0.0/4294967304" is accepted with
    prefix 8. -/
theorem parse_violated_wrap : ∃ d, Digits 4294967304 d ∧ addressParse true (some (ten ++ 47 :: d)) = .ok (ip4 10 0 0 0, some 8) := by
  refine ⟨[52, 50, 57, 52, 57, 54, 55, 51, 48, 52], ⟨[4, 2, 9, 4, 9, 6, 7, 3, 0, 4], by decide +kernel, by decide, by decide, by decide⟩, by decide +kernel⟩

/-- C33 violated: only 48 characters are considered, so the prefix of "10.0.0.0/", followed by 39
    zeroes and "24", is 0. -/
theorem parse_violated_long : ∃ d, Digits 24 d ∧ addressParse true (some (ten ++ 47 :: d)) = .ok (ip4 10 0 0 0, some 0) := by
  refine ⟨List.replicate 39 48 ++ [50, 52], ⟨List.replicate 39 0 ++ [2, 4], by decide +kernel, by decide +kernel, by decide, by decide +kernel⟩, by decide +kernel⟩

/-- C33: text after the number, or no number at all, is not noticed: "10.0.0.0/8x" has prefix 8 and
    "10.0.0.0/" has prefix 0. -/
theorem parse_ignores_junk : addressParse true (some (ten ++ [47, 56, 120])) = .ok (ip4 10 0 0 0, some 8) ∧
    addressParse true (some (ten ++ [47])) = .ok (ip4 10 0 0 0, some 0) := by
  decide +kernel

/-- "::ffff:10.0.0.0" -/
def mappedTen : CStr := [58, 58, 102, 102, 102, 102, 58] ++ ten

/-- An IPv4 address in IPv6 notation gets the default prefix 128, which is no valid prefix for it:
    the string denotes an address, but no network can be made of it. -/
theorem mapped_text_no_network : Denotes mappedTen (ip4 10 0 0 0) ∧ newFromString (some mappedTen) = .error (.err EINVAL) ∧
    (newFromString (some ten)).isOk = true :=
  ⟨parseText_iff.mp ⟨.inet6, by decide +kernel⟩, by decide +kernel, by decide +kernel⟩

/-! ## C34 -/

theorem network_parse {n : Network} (hb : Block n) : newFromString (some (addrText n.first ++ 47 :: decStr (netPrefix n))) =
    newNetwork n.first (netPrefix n) ∧ (addrText n.first ++ 47 :: decStr (netPrefix n)).length ≤ 48 ∧ netPrefix n ≤ width n.first := by
  have hfam := hb.fam
  have hle := hb.le
  have hw : netPrefix n ≤ width n.first ∧ width n.first = familyBitLength (addrFamily n.first) ∧ width n.first ≤ 128 := by
    unfold netPrefix width familyBitLength addrFamily
    have hv := isV4Mapped_iff n.first
    cases hf : n.family with
    | inet =>
      have h4 := hfam.mp hf
      rw [if_pos h4, if_pos (hv.mpr h4)]
      exact ⟨by simp only; omega, rfl, by omega⟩
    | inet6 =>
      have h4 : ¬ IsV4 n.first := fun h => by
        have := hfam.mpr h
        rw [hf] at this
        cases this
      rw [if_neg h4, if_neg (fun h => h4 (hv.mp h))]
      exact ⟨by simp only; omega, rfl, by omega⟩
  have hd := decStr_numeral (n := netPrefix n) (by omega)
  have hdl := numeral_length (m := 3) hd (by omega) (by decide)
  have htl := addrText_length n.first
  have hlen : (addrText n.first ++ 47 :: decStr (netPrefix n)).length ≤ 48 := by
    rw [List.length_append, List.length_cons]
    omega
  have hden : Denotes (addrText n.first) n.first := parseText_iff.mp ⟨_, addrText_denotes n.first⟩
  refine ⟨?_, hlen, hw.1⟩
  have := (parse_prefix_partial (addrText n.first) _ (netPrefix n) (text_no_slash hden) (numeral_digits hd) hlen (by omega) n.first (netPrefix n)).mpr
    ⟨hden, rfl, _, (parseText_largest (addrText_denotes n.first) _).mpr rfl, by omega⟩
  unfold newFromString
  rw [this]
  rfl

/-- C34: the string of any network, formatted for the first time in any state of the buffers, is
    parsed back into the same block, and later calls return the same string without touching the
    buffers. -/
theorem network_string_roundtrip {n : Network} (hb : Block n) (pre : List (Option Addr)) :
    ∃ st st' s m, fmtRun fmtInit pre = .ok st ∧ networkStr st n [] = .ok (st', some s, s) ∧ newFromString (some s) = .ok m ∧
      m.family = n.family ∧ m.first = n.first ∧ m.last = n.last ∧ m.pfx = n.pfx ∧
      ∀ st2, networkStr st2 n s = .ok (st2, some s, s) := by
  obtain ⟨st, h1, h2, -⟩ := fmtRun_spec pre fmtInit (by decide)
  have hi : st.idx < 6 := by rw [h2]; exact Nat.mod_lt _ (by decide)
  have h3 := addressStr_spec hi n.first
  obtain ⟨h4, h5, h6⟩ := network_parse hb
  obtain ⟨m, hm⟩ := (new_accepts n.first (netPrefix n)).mpr h6
  obtain ⟨c1, c2, c3, c4, c5, c6, c7, -⟩ := new_canonical _ _ _ hm
  have hp : m.pfx = n.pfx := by
    rw [c4]
    unfold familyStart netPrefix
    cases hf : n.family with
    | inet =>
      have h := hb.fam.mp hf
      have := pfx_v4 hb h
      rw [if_pos h]
      simp only
      omega
    | inet6 =>
      have h : ¬ IsV4 n.first := fun h => by
        have := hb.fam.mpr h
        rw [hf] at this
        cases this
      rw [if_neg h]
      simp
  have hfirst : value m.first = value n.first := by
    have a1 := c1.aligned
    have a2 := hb.aligned
    rw [← hp] at a2
    unfold AgreeOn at c5
    exact aligned_inj (Nat.two_pow_pos _) a1 a2 c5.symm
  have hlast : value m.last = value n.last := by rw [c1.last_eq, hb.last_eq, hfirst, hp]
  have hf : m.family = n.family := by
    have := hb.fam
    cases e1 : m.family <;> cases e2 : n.family <;> simp_all
  refine ⟨st, ⟨st.bufs.set st.idx (addrText n.first), (st.idx + 1) % 6⟩, _, m, h1, ?_, (by rw [h4]; exact hm), hf, value_inj hfirst, value_inj hlast,
    hp, ?_⟩
  · unfold networkStr
    rw [if_pos (show ([] : CStr).isEmpty = true from rfl), h3]
    simp only [bind, Except.bind]
    rw [dif_pos hi]
    simp only [Vector.getElem_set_self]
    rw [List.take_of_length_le h5]
  · intro st2
    unfold networkStr
    rw [if_neg (by simp)]

/-- "10.2.0.0/16" and "2001:db8::/32" -/
example : (networkStr fmtInit (mk4 (ip4 10 2 0 0) (ip4 10 2 255 255) 16) []).map (·.2.1) = .ok (some [49, 48, 46, 50, 46, 48, 46, 48, 47, 49, 54]) ∧
    addrText #v[0x20,0x01,0x0d,0xb8, 0,0,0,0, 0,0,0,0, 0,0,0,0] = [50, 48, 48, 49, 58, 100, 98, 56, 58, 58] := by
  decide +kernel

end Loc.Props
