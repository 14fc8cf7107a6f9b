import Verif.Lemmas.WhoisText
import Verif.Lemmas.WhoisLines
import Verif.Spec.Feeds
/-
Lemmas for C77: what the readers of the feeds make of an entry, and of all entries.
-/
namespace Loc
open Spec Props

/-! ## Networks in text form -/

theorem ipNetworkStrict_iff {s : Bytes} {n : Network} : ipNetworkStrict s = some n ↔ NamesExactly s n := by
  unfold ipNetworkStrict NamesExactly
  rw [← ipNetwork_iff, denotes_iff]
  constructor
  · intro h
    split at h
    · cases h
    · rename_i a f hp
      split at h
      · cases h
      · rename_i m hm
        split at h
        · rename_i heq
          injection h with h
          subst h
          exact ⟨hm, f, by rw [hp, heq]⟩
        · cases h
  · rintro ⟨h1, f, h2⟩
    rw [h2, h1]
    simp only [if_true]

theorem namesExactly_unique {s : Bytes} {m n : Network} (hm : NamesExactly s m) (hn : NamesExactly s n) : m = n := by
  have h1 := ipNetworkStrict_iff.mpr hm
  rw [ipNetworkStrict_iff.mpr hn] at h1
  cases h1
  rfl

theorem bytesOf_eq (s : String) : bytesOf s = ascii s := rfl

/-! ## JSON -/

theorem find_last {o : List (Bytes × Json)} {key : Bytes} {x : Bytes × Json} :
    (o.reverse.find? fun x => decide (x.1 = key)) = some x ↔
      x.1 = key ∧ ∃ pre post, o = pre ++ x :: post ∧ ∀ y ∈ post, y.1 ≠ key := by
  rw [List.find?_eq_some_iff_append]
  constructor
  · rintro ⟨hx, as, bs, h1, h2⟩
    refine ⟨of_decide_eq_true hx, bs.reverse, as.reverse, ?_, ?_⟩
    · have := congrArg List.reverse h1
      simpa using this
    · intro y hy
      have := h2 y (List.mem_reverse.mp hy)
      simpa using this
  · rintro ⟨hx, pre, post, rfl, h2⟩
    refine ⟨by simpa using hx, post.reverse, pre.reverse, by simp, ?_⟩
    intro y hy
    simpa using h2 y (List.mem_reverse.mp hy)

theorem find_last_none {o : List (Bytes × Json)} {key : Bytes} :
    (o.reverse.find? fun x => decide (x.1 = key)) = none ↔ ∀ y ∈ o, y.1 ≠ key := by
  rw [List.find?_eq_none]
  simp

theorem jsonAt_iff {o : List (Bytes × Json)} {key : String} {v : Json} :
    JsonAt (.object o) key v ↔ (o.reverse.find? fun x => decide (x.1 = ascii key)) = some (ascii key, v) := by
  rw [find_last]
  constructor
  · rintro ⟨pre, post, h, hp⟩
    injection h with h
    exact ⟨rfl, pre, post, h, hp⟩
  · rintro ⟨-, pre, post, h, hp⟩
    exact ⟨pre, post, by rw [h], hp⟩

theorem jsonLacks_iff {o : List (Bytes × Json)} {key : String} :
    JsonLacks (.object o) key ↔ (o.reverse.find? fun x => decide (x.1 = ascii key)) = none := by
  rw [find_last_none]
  constructor
  · rintro ⟨o', h, hp⟩
    injection h with h
    rw [h]; exact hp
  · exact fun h => ⟨o, rfl, h⟩

theorem jsonAt_object {j : Json} {key : String} {v : Json} (h : JsonAt j key v) : ∃ o, j = .object o := by
  obtain ⟨pre, post, rfl, -⟩ := h
  exact ⟨_, rfl⟩

theorem jsonLacks_object {j : Json} {key : String} (h : JsonLacks j key) : ∃ o, j = .object o := by
  obtain ⟨o, rfl, -⟩ := h
  exact ⟨o, rfl⟩

/-- What `get` returns. -/
theorem get_iff {j : Json} {key : String} {v : Json} :
    j.get (ascii key) = some v ↔ JsonAt j key v ∨ (JsonLacks j key ∧ v = .null) := by
  cases j with
  | object o =>
    have hget : Json.get (ascii key) (.object o) = some (((o.reverse.find? fun x => decide (x.1 = ascii key)).map (·.2)).getD .null) := rfl
    rw [hget, jsonAt_iff, jsonLacks_iff]
    cases hf : o.reverse.find? fun x => decide (x.1 = ascii key) with
    | none =>
      simp only [Option.map_none, Option.getD_none, Option.some.injEq, reduceCtorEq, false_or, true_and]
      exact eq_comm
    | some x =>
      have hx := (find_last.mp hf).1
      simp only [Option.map_some, Option.getD_some, Option.some.injEq, reduceCtorEq, false_and, or_false]
      constructor
      · rintro rfl; rw [← hx]
      · intro h; rw [h]
  | _ =>
    constructor
    · intro h; cases h
    · rintro (h | ⟨h, -⟩)
      · obtain ⟨o, h⟩ := jsonAt_object h; cases h
      · obtain ⟨o, h⟩ := jsonLacks_object h; cases h

theorem get_none {j : Json} {key : Bytes} : j.get key = none ↔ ¬ ∃ o, j = .object o := by
  cases j with
  | object o => simp [Json.get]
  | _ => simp [Json.get]

theorem jsonAt_unique {j : Json} {key : String} {v v' : Json} (h : JsonAt j key v) (h' : JsonAt j key v') : v = v' := by
  obtain ⟨o, rfl⟩ := jsonAt_object h
  rw [jsonAt_iff] at h h'
  rw [h] at h'
  injection h' with h'
  injection h'

theorem jsonAt_lacks {j : Json} {key : String} {v : Json} (h : JsonAt j key v) (h' : JsonLacks j key) : False := by
  obtain ⟨o, rfl⟩ := jsonAt_object h
  rw [jsonAt_iff] at h
  rw [jsonLacks_iff] at h'
  rw [h] at h'
  cases h'

theorem truthy_iff {v : Json} : v.truthy = false ↔ JsonVoid v := by
  unfold JsonVoid
  cases v with
  | null => simp [Json.truthy]
  | bool b => cases b <;> simp [Json.truthy]
  | number i => simp [Json.truthy]
  | text s => simp [Json.truthy]
  | list l => simp [Json.truthy]
  | object o => simp [Json.truthy]

/-- A value under a key that is not there, or is void. -/
theorem blank_iff {j : Json} {key : String} : JsonBlank j key ↔ ∃ v, j.get (ascii key) = some v ∧ v.truthy = false := by
  unfold JsonBlank
  constructor
  · rintro (h | ⟨v, h, hv⟩)
    · exact ⟨.null, get_iff.mpr (.inr ⟨h, rfl⟩), rfl⟩
    · exact ⟨v, get_iff.mpr (.inl h), truthy_iff.mpr hv⟩
  · rintro ⟨v, h, hv⟩
    rcases get_iff.mp h with h | ⟨h, -⟩
    · exact .inr ⟨v, h, truthy_iff.mp hv⟩
    · exact .inl h

theorem get_text {j : Json} {key : String} {s : Bytes} : j.get (ascii key) = some (.text s) ↔ JsonAt j key (.text s) := by
  rw [get_iff]
  constructor
  · rintro (h | ⟨-, h⟩)
    · exact h
    · cases h
  · exact .inl

theorem get_number {j : Json} {key : String} {i : Int} : j.get (ascii key) = some (.number i) ↔ JsonAt j key (.number i) := by
  rw [get_iff]
  constructor
  · rintro (h | ⟨-, h⟩)
    · exact h
    · cases h
  · exact .inl

/-! ## AWS -/

theorem strs_feed : strPrefixes6 = ascii "ipv6_prefixes" ∧ strPrefixes = ascii "prefixes" ∧ strPrefix6 = ascii "ipv6_prefix" ∧
    strPrefix4 = ascii "ip_prefix" ∧ strRegion = ascii "region" ∧ strGlobal = ascii "GLOBAL" ∧ strUs = ascii "us-" ∧
    strCn = ascii "cn-" ∧ strType = ascii "type" ∧ strMetadata = ascii "metadata" ∧ strAsn = ascii "asn" := by decide +kernel

/-- No region of the dictionary is "GLOBAL" or in the United States or China, and each is there once. -/
theorem regions_apart : (∀ x ∈ awsRegions, ascii x.1 ≠ ascii "GLOBAL" ∧ ¬ ascii "us-" <+: ascii x.1 ∧ ¬ ascii "cn-" <+: ascii x.1) ∧
    (awsRegions.map fun x => ascii x.1).Nodup := by decide +kernel

theorem regions_words : ¬ ascii "us-" <+: ascii "GLOBAL" ∧ ¬ ascii "cn-" <+: ascii "GLOBAL" := by decide +kernel

theorem eq_of_nodup_map {α β : Type} {f : α → β} {l : List α} (h : (l.map f).Nodup) {a b : α} (ha : a ∈ l) (hb : b ∈ l) (hf : f a = f b) : a = b := by
  induction l with
  | nil => cases ha
  | cons x l ih =>
    rw [List.map_cons, List.nodup_cons] at h
    rcases List.mem_cons.mp ha with rfl | ha'
    · rcases List.mem_cons.mp hb with rfl | hb'
      · rfl
      · exact absurd (List.mem_map.mpr ⟨b, hb', hf.symm⟩) h.1
    · rcases List.mem_cons.mp hb with rfl | hb'
      · exact absurd (List.mem_map.mpr ⟨a, ha', hf⟩) h.1
      · exact ih h.2 ha' hb'

theorem us_cn {r : Bytes} (h1 : ascii "us-" <+: r) (h2 : ascii "cn-" <+: r) : False := by
  have h := List.prefix_of_prefix_length_le h1 h2 (by decide)
  revert h
  decide

theorem regions_all : (regionsIn.flatMap fun x => x.2.map fun y => (y, x.1)).all (fun z => decide (z ∈ awsRegions)) = true ∧
    awsRegions.all (fun z => decide (z ∈ regionsIn.flatMap fun x => x.2.map fun y => (y, x.1))) = true := by decide +kernel

theorem region_iff {r : Bytes} {cc : Option CStr} {anycast : Bool} :
    (∃ x ∈ regionsIn, ∃ y ∈ x.2, r = ascii y ∧ cc = some (ascii x.1) ∧ anycast = false) ↔
    ∃ x ∈ awsRegions, r = ascii x.1 ∧ cc = some (ascii x.2) ∧ anycast = false := by
  obtain ⟨h1, h2⟩ := regions_all
  rw [List.all_eq_true] at h1 h2
  constructor
  · rintro ⟨x, hx, y, hy, h⟩
    exact ⟨(y, x.1), of_decide_eq_true (h1 _ (List.mem_flatMap.mpr ⟨x, hx, List.mem_map.mpr ⟨y, hy, rfl⟩⟩)), h⟩
  · rintro ⟨z, hz, h⟩
    obtain ⟨x, hx, hy⟩ := List.mem_flatMap.mp (of_decide_eq_true (h2 z hz))
    obtain ⟨y, hy', rfl⟩ := List.mem_map.mp hy
    exact ⟨x, hx, y, hy', h⟩

theorem awsRegion_iff {r : Bytes} {cc : Option CStr} {anycast : Bool} :
    awsRegion (.text r) = some (some (cc, anycast)) ↔ RegionSays r cc anycast := by
  obtain ⟨ra, rn⟩ := regions_apart
  obtain ⟨-, -, -, -, -, sg, su, sc, -⟩ := strs_feed
  have hreg : awsRegion (.text r) = match awsRegions.find? fun x => decide (ascii x.1 = r) with
    | some x => some (some (some (ascii x.2), false))
    | none =>
      if r = ascii "GLOBAL" then some (some (none, true))
      else if (ascii "us-").isPrefixOf r then some (some (some (ascii "US"), false))
      else if (ascii "cn-").isPrefixOf r then some (some (some (ascii "CN"), false))
      else some none := by
    rw [← sg, ← su, ← sc]
    rfl
  rw [hreg]
  unfold RegionSays
  rw [region_iff]
  cases hf : awsRegions.find? fun x => decide (ascii x.1 = r) with
  | some x =>
    have hx := List.find?_some hf
    have hx : ascii x.1 = r := of_decide_eq_true hx
    have hm := List.mem_of_find?_eq_some hf
    obtain ⟨g1, g2, g3⟩ := ra x hm
    simp only [Option.some.injEq, Prod.mk.injEq]
    constructor
    · rintro ⟨rfl, rfl⟩
      exact .inl ⟨x, hm, hx.symm, rfl, rfl⟩
    · rintro (⟨y, hy, h1, h2, h3⟩ | ⟨h, -⟩ | ⟨h, -⟩ | ⟨h, -⟩)
      · have hxy : x = y := by
          have := eq_of_nodup_map rn hm hy (by rw [hx, h1])
          exact this
        subst hxy
        exact ⟨h2.symm, h3.symm⟩
      · exact absurd (hx.trans h) g1
      · rw [hx] at g2; exact absurd h g2
      · rw [hx] at g3; exact absurd h g3
  | none =>
    have hn : ∀ x ∈ awsRegions, ascii x.1 ≠ r := by
      intro x hx h
      have := List.find?_eq_none.mp hf x hx
      simp [h] at this
    simp only
    by_cases h1 : r = ascii "GLOBAL"
    · rw [if_pos h1]
      simp only [Option.some.injEq, Prod.mk.injEq]
      constructor
      · rintro ⟨rfl, rfl⟩
        exact .inr (.inl ⟨h1, rfl, rfl⟩)
      · rintro (⟨y, hy, h, -⟩ | ⟨-, h2, h3⟩ | ⟨h, -⟩ | ⟨h, -⟩)
        · exact absurd h.symm (hn y hy)
        · exact ⟨h2.symm, h3.symm⟩
        · rw [h1] at h; exact absurd h regions_words.1
        · rw [h1] at h; exact absurd h regions_words.2
    · rw [if_neg h1]
      by_cases h2 : ascii "us-" <+: r
      · rw [if_pos (List.isPrefixOf_iff_prefix.mpr h2)]
        simp only [Option.some.injEq, Prod.mk.injEq]
        constructor
        · rintro ⟨rfl, rfl⟩
          exact .inr (.inr (.inl ⟨h2, rfl, rfl⟩))
        · rintro (⟨y, hy, h, -⟩ | ⟨h, -⟩ | ⟨-, h4, h5⟩ | ⟨h, -⟩)
          · exact absurd h.symm (hn y hy)
          · exact absurd h h1
          · exact ⟨h4.symm, h5.symm⟩
          · exact (us_cn h2 h).elim
      · rw [if_neg (fun h => h2 (List.isPrefixOf_iff_prefix.mp h))]
        by_cases h3 : ascii "cn-" <+: r
        · rw [if_pos (List.isPrefixOf_iff_prefix.mpr h3)]
          simp only [Option.some.injEq, Prod.mk.injEq]
          constructor
          · rintro ⟨rfl, rfl⟩
            exact .inr (.inr (.inr ⟨h3, rfl, rfl⟩))
          · rintro (⟨y, hy, h, -⟩ | ⟨h, -⟩ | ⟨h, -⟩ | ⟨-, h4, h5⟩)
            · exact absurd h.symm (hn y hy)
            · exact absurd h h1
            · exact absurd h h2
            · exact ⟨h4.symm, h5.symm⟩
        · rw [if_neg (fun h => h3 (List.isPrefixOf_iff_prefix.mp h))]
          constructor
          · intro h; cases h
          · rintro (⟨y, hy, h, -⟩ | ⟨h, -⟩ | ⟨h, -⟩ | ⟨h, -⟩)
            · exact absurd h.symm (hn y hy)
            · exact absurd h h1
            · exact absurd h h2
            · exact absurd h h3

theorem awsRegion_text (r : Bytes) : awsRegion (.text r) ≠ none := by
  intro h
  simp only [awsRegion] at h
  split at h
  · cases h
  · split at h
    · cases h
    · split at h
      · cases h
      · split at h <;> cases h

/-- The entry without the table: an exception, nothing, or a row. -/
def awsSay (e : FeedEnv) (p : Json) : Option (Option (Network × Option CStr × Bool)) :=
  match p.get strPrefix6 with
  | none => none
  | some p6 =>
    match (if p6.truthy then some p6 else p.get strPrefix4) with
    | some (.text s) =>
      match ipNetworkStrict s with
      | none => none
      | some n =>
        if !checkNetwork e.whois n then some none
        else
          match p.get strRegion with
          | none => none
          | some r =>
            match awsRegion r with
            | none => none
            | some none => some none
            | some (some (cc, anycast)) => some (some (n, cc, anycast))
    | _ => none

def awsRow (name : CStr) (x : Network × Option CStr × Bool) : (Network × CStr) × Marks := ((x.1, name), ⟨x.2.1, none, none, some x.2.2, none⟩)

/-- The row of an entry goes into the table. -/
def awsPut (name : CStr) (t : FeedTables) : Option (Network × Option CStr × Bool) → FeedTables
  | none => t
  | some x => { t with networks := putNew t.networks (awsRow name x).1 (awsRow name x).2 }

theorem awsPrefix_say (e : FeedEnv) (name : CStr) (t : FeedTables) (p : Json) :
    awsPrefix e name t p = (awsSay e p).map (awsPut name t) := by
  unfold awsPrefix awsSay
  cases p.get strPrefix6 with
  | none => rfl
  | some p6 =>
    simp only
    generalize (if p6.truthy = true then some p6 else p.get strPrefix4) = o
    cases o with
    | none => rfl
    | some v =>
      cases v with
      | text s =>
        simp only
        cases ipNetworkStrict s with
        | none => rfl
        | some n =>
          simp only
          by_cases hc : (!checkNetwork e.whois n) = true
          · rw [if_pos hc, if_pos hc]; rfl
          · rw [if_neg hc, if_neg hc]
            cases p.get strRegion with
            | none => rfl
            | some r =>
              simp only
              cases awsRegion r with
              | none => rfl
              | some x =>
                cases x with
                | none => rfl
                | some x => rfl
      | _ => rfl

/-- The text of the network of an entry. -/
theorem awsNetwork_iff {p : Json} {s : Bytes} : AwsNetwork p s ↔
    ∃ p6, p.get strPrefix6 = some p6 ∧ (if p6.truthy then some p6 else p.get strPrefix4) = some (.text s) := by
  obtain ⟨-, -, s6, s4, -⟩ := strs_feed
  rw [s6, s4]
  unfold AwsNetwork
  rw [blank_iff]
  constructor
  · rintro (⟨hs, h⟩ | ⟨⟨v, h1, h2⟩, h3⟩)
    · refine ⟨.text s, get_text.mpr h, ?_⟩
      have : (Json.text s).truthy = true := by simpa [Json.truthy] using hs
      rw [if_pos this]
    · refine ⟨v, h1, ?_⟩
      rw [h2]
      exact get_text.mpr h3
  · rintro ⟨p6, h1, h2⟩
    by_cases ht : p6.truthy = true
    · rw [if_pos ht] at h2
      injection h2 with h2
      subst h2
      exact .inl ⟨by simpa [Json.truthy] using ht, get_text.mp h1⟩
    · rw [if_neg ht] at h2
      exact .inr ⟨⟨p6, h1, by simpa using ht⟩, get_text.mp h2⟩

theorem awsNetwork_unique {p : Json} {s s' : Bytes} (h : AwsNetwork p s) (h' : AwsNetwork p s') : s = s' := by
  rw [awsNetwork_iff] at h h'
  obtain ⟨p6, h1, h2⟩ := h
  obtain ⟨p6', h1', h2'⟩ := h'
  rw [h1] at h1'
  cases h1'
  rw [h2] at h2'
  cases h2'
  rfl

theorem exactly_check {e : FeedEnv} {s : Bytes} {n : Network} (h : NamesExactly s n) : checkNetwork e.whois n = true ↔ Acceptable e.whois n :=
  checkNetwork_iff (names_bare h.1)

theorem awsSay_some {e : FeedEnv} {p : Json} {n : Network} {cc : Option CStr} {anycast : Bool} :
    awsSay e p = some (some (n, cc, anycast)) ↔ AwsSays e p n cc anycast := by
  obtain ⟨-, -, -, -, sr, -⟩ := strs_feed
  unfold AwsSays
  constructor
  · intro h
    unfold awsSay at h
    split at h
    · cases h
    · rename_i p6 hp6
      split at h
      · rename_i s hs
        split at h
        · cases h
        · rename_i m hm
          have hx := ipNetworkStrict_iff.mp hm
          split at h
          · cases h
          · rename_i hc
            split at h
            · cases h
            · rename_i r hr
              split at h
              · cases h
              · cases h
              · rename_i c a hra
                injection h with h
                injection h with h
                cases h
                rw [sr] at hr
                have : ∃ t, r = .text t := by
                  cases r with
                  | text t => exact ⟨t, rfl⟩
                  | _ => simp [awsRegion] at hra
                obtain ⟨t, rfl⟩ := this
                refine ⟨s, t, awsNetwork_iff.mpr ⟨p6, hp6, hs⟩, hx, (exactly_check hx).mp (by simpa using hc), get_text.mp hr, awsRegion_iff.mp hra⟩
      · cases h
  · rintro ⟨s, r, h1, h2, h3, h4, h5⟩
    obtain ⟨p6, g1, g2⟩ := awsNetwork_iff.mp h1
    have g4 := get_text.mpr h4
    rw [← sr] at g4
    have gc := (exactly_check h2).mpr h3
    unfold awsSay
    simp only [g1, g2, ipNetworkStrict_iff.mpr h2, gc, Bool.not_true, Bool.false_eq_true, if_false, g4, awsRegion_iff.mpr h5]

theorem awsSay_sane {e : FeedEnv} {p : Json} : awsSay e p ≠ none ↔ AwsSane e p := by
  obtain ⟨-, -, -, -, sr, -⟩ := strs_feed
  unfold AwsSane
  constructor
  · intro h
    unfold awsSay at h
    split at h
    · exact absurd rfl h
    · rename_i p6 hp6
      split at h
      · rename_i s hs
        split at h
        · exact absurd rfl h
        · rename_i m hm
          have hx := ipNetworkStrict_iff.mp hm
          refine ⟨s, m, awsNetwork_iff.mpr ⟨p6, hp6, hs⟩, hx, fun hacc => ?_⟩
          have gc := (exactly_check hx).mpr hacc
          simp only [gc, Bool.not_true, Bool.false_eq_true, if_false] at h
          split at h
          · exact absurd rfl h
          · rename_i r hr
            rw [sr] at hr
            cases r with
            | text t => exact ⟨t, get_text.mp hr⟩
            | _ => exact absurd rfl h
      · exact absurd rfl h
  · rintro ⟨s, n, h1, h2, h3⟩
    obtain ⟨p6, g1, g2⟩ := awsNetwork_iff.mp h1
    unfold awsSay
    simp only [g1, g2, ipNetworkStrict_iff.mpr h2]
    by_cases hc : checkNetwork e.whois n = true
    · obtain ⟨r, hr⟩ := h3 ((exactly_check h2).mp hc)
      have hr := get_text.mpr hr
      rw [← sr] at hr
      simp only [hc, Bool.not_true, Bool.false_eq_true, if_false, hr]
      have := awsRegion_text r
      cases ha : awsRegion (.text r) with
      | none => exact absurd ha this
      | some x => cases x <;> simp
    · have hc : checkNetwork e.whois n = false := by simpa using hc
      simp [hc]

theorem awsSays_unique {e : FeedEnv} {p : Json} {n n' : Network} {cc cc' : Option CStr} {a a' : Bool} (h : AwsSays e p n cc a)
    (h' : AwsSays e p n' cc' a') : n = n' ∧ cc = cc' ∧ a = a' := by
  have h := awsSay_some.mpr h
  rw [awsSay_some.mpr h'] at h
  cases h
  exact ⟨rfl, rfl, rfl⟩

theorem awsSane_of_says {e : FeedEnv} {p : Json} {n : Network} {cc : Option CStr} {a : Bool} (h : AwsSays e p n cc a) : AwsSane e p := by
  rw [← awsSay_sane, awsSay_some.mpr h]
  simp

/-- Putting rows into a table, where the first one for a key counts. -/
theorem mem_foldl_putNew {κ β : Type} [DecidableEq κ] {evs : List (κ × β)} : ∀ {t : List (κ × β)} {k : κ} {v : β},
    (k, v) ∈ evs.foldl (fun t x => putNew t x.1 x.2) t ↔
      (k, v) ∈ t ∨ (k ∉ t.map (·.1) ∧ ∃ pre post, evs = pre ++ (k, v) :: post ∧ ∀ x ∈ pre, x.1 ≠ k) := by
  induction evs with
  | nil => intro t k v; simp
  | cons x evs ih =>
    intro t k v
    obtain ⟨k', v'⟩ := x
    rw [List.foldl_cons, ih, mem_putNew]
    simp only
    have hkeys : k ∈ (putNew t k' v').map (·.1) ↔ k ∈ t.map (·.1) ∨ k = k' := by
      constructor
      · intro h
        obtain ⟨⟨a, b⟩, hm, rfl⟩ := List.mem_map.mp h
        rcases mem_putNew.mp hm with h | ⟨-, rfl, -⟩
        · exact .inl (List.mem_map.mpr ⟨_, h, rfl⟩)
        · exact .inr rfl
      · rintro (h | rfl)
        · obtain ⟨⟨a, b⟩, hm, rfl⟩ := List.mem_map.mp h
          exact List.mem_map.mpr ⟨(a, b), mem_putNew.mpr (.inl hm), rfl⟩
        · by_cases hk : k ∈ t.map (·.1)
          · obtain ⟨⟨a, b⟩, hm, hab⟩ := List.mem_map.mp hk
            exact List.mem_map.mpr ⟨(a, b), mem_putNew.mpr (.inl hm), hab⟩
          · exact List.mem_map.mpr ⟨(k, v'), mem_putNew.mpr (.inr ⟨hk, rfl, rfl⟩), rfl⟩
    rw [hkeys]
    constructor
    · rintro ((h | ⟨h1, rfl, rfl⟩) | ⟨h1, pre, post, rfl, h2⟩)
      · exact .inl h
      · exact .inr ⟨h1, [], evs, rfl, by simp⟩
      · refine .inr ⟨fun h => h1 (.inl h), (k', v') :: pre, post, rfl, ?_⟩
        intro y hy
        rcases List.mem_cons.mp hy with rfl | hy
        · exact fun h => h1 (.inr h.symm)
        · exact h2 y hy
    · rintro (h | ⟨h1, pre, post, h2, h3⟩)
      · exact .inl (.inl h)
      · cases pre with
        | nil =>
          injection h2 with h2 h4
          cases h2
          exact .inl (.inr ⟨h1, rfl, rfl⟩)
        | cons y pre =>
          injection h2 with h2 h4
          subst h2
          refine .inr ⟨?_, pre, post, h4, fun z hz => h3 z (List.mem_cons_of_mem _ hz)⟩
          rintro (h | h)
          · exact h1 h
          · exact h3 _ List.mem_cons_self h.symm

theorem keys_foldl_putNew {κ β : Type} [DecidableEq κ] {evs : List (κ × β)} : ∀ {t : List (κ × β)}, (t.map (·.1)).Nodup →
    ((evs.foldl (fun t x => putNew t x.1 x.2) t).map (·.1)).Nodup := by
  induction evs with
  | nil => exact fun h => h
  | cons x evs ih => exact fun h => ih (keys_putNew h)

/-- The rows of all entries, in their order. -/
def awsRows (e : FeedEnv) (name : CStr) (l : List Json) : List ((Network × CStr) × Marks) :=
  l.filterMap fun p => ((awsSay e p).join).map (awsRow name)

theorem awsPrefixes_spec {e : FeedEnv} {name : CStr} {l : List Json} : ∀ {t : FeedTables},
    ((∀ p ∈ l, AwsSane e p) → awsPrefixes e name t l = some { t with networks := (awsRows e name l).foldl (fun t x => putNew t x.1 x.2) t.networks }) ∧
    ((¬ ∀ p ∈ l, AwsSane e p) → awsPrefixes e name t l = none) := by
  induction l with
  | nil => exact fun {t} => ⟨fun _ => rfl, fun h => absurd (by simp) h⟩
  | cons p l ih =>
    intro t
    unfold awsPrefixes
    rw [awsPrefix_say]
    by_cases hp : AwsSane e p
    · obtain ⟨o, ho⟩ := Option.ne_none_iff_exists'.mp (awsSay_sane.mpr hp)
      rw [ho]
      simp only [Option.map_some]
      have hrows : awsRows e name (p :: l) = (o.map (awsRow name)).toList ++ awsRows e name l := by
        unfold awsRows
        rw [List.filterMap_cons, ho]
        cases o <;> rfl
      constructor
      · intro h
        rw [ih.1 fun q hq => h q (List.mem_cons_of_mem _ hq), hrows]
        cases o <;> rfl
      · intro h
        refine ih.2 fun h' => h fun q hq => ?_
        rcases List.mem_cons.mp hq with rfl | hq
        · exact hp
        · exact h' q hq
    · have hn : awsSay e p = none := Classical.byContradiction fun h => hp (awsSay_sane.mp h)
      rw [hn]
      exact ⟨fun h => absurd (h p List.mem_cons_self) hp, fun _ => rfl⟩

theorem mem_awsRows {e : FeedEnv} {name : CStr} {l : List Json} {k : Network × CStr} {m : Marks} :
    (∃ pre post, awsRows e name l = pre ++ (k, m) :: post ∧ ∀ x ∈ pre, x.1 ≠ k) ↔
      k.2 = name ∧ ∃ pre p post cc anycast, l = pre ++ p :: post ∧ AwsSays e p k.1 cc anycast ∧
        (∀ q ∈ pre, ∀ c a, ¬ AwsSays e q k.1 c a) ∧ m = ⟨cc, none, none, some anycast, none⟩ := by
  induction l with
  | nil => simp [awsRows]
  | cons p l ih =>
    have hcons : awsRows e name (p :: l) = (((awsSay e p).join).map (awsRow name)).toList ++ awsRows e name l := by
      unfold awsRows
      rw [List.filterMap_cons]
      cases ((awsSay e p).join).map (awsRow name) <;> rfl
    cases hs : (awsSay e p).join with
    | none =>
      have hno : ∀ n c a, ¬ AwsSays e p n c a := by
        intro n c a h
        rw [awsSay_some.mpr h] at hs
        cases hs
      rw [hcons, hs]
      simp only [Option.map_none, Option.toList_none, List.nil_append]
      rw [ih]
      constructor
      · rintro ⟨h1, pre, q, post, cc, a, rfl, h2, h3, h4⟩
        refine ⟨h1, p :: pre, q, post, cc, a, rfl, h2, ?_, h4⟩
        intro x hx
        rcases List.mem_cons.mp hx with rfl | hx
        · exact fun c a => hno _ c a
        · exact h3 x hx
      · rintro ⟨h1, pre, q, post, cc, a, h0, h2, h3, h4⟩
        cases pre with
        | nil =>
          injection h0 with h0 h5
          subst h0
          exact absurd h2 (hno _ _ _)
        | cons y pre =>
          injection h0 with h0 h5
          exact ⟨h1, pre, q, post, cc, a, h5, h2, fun x hx => h3 x (List.mem_cons_of_mem _ hx), h4⟩
    | some x =>
      obtain ⟨n, c, a⟩ := x
      have hsay : AwsSays e p n c a := by
        apply awsSay_some.mp
        cases ho : awsSay e p with
        | none => rw [ho] at hs; cases hs
        | some o =>
          rw [ho] at hs
          have hs : o = some (n, c, a) := hs
          rw [hs]
      rw [hcons, hs]
      simp only [Option.map_some, Option.toList_some, List.cons_append, List.nil_append]
      constructor
      · rintro ⟨pre, post, h1, h2⟩
        cases pre with
        | nil =>
          injection h1 with h1 h3
          have hk : k = (n, name) := (congrArg Prod.fst h1).symm
          have hm : m = ⟨c, none, none, some a, none⟩ := (congrArg Prod.snd h1).symm
          subst hk
          exact ⟨rfl, [], p, l, c, a, rfl, hsay, by simp, hm⟩
        | cons y pre =>
          injection h1 with h1 h3
          have hy : (n, name) ≠ k := by
            have := h2 y List.mem_cons_self
            rw [← h1] at this
            exact this
          obtain ⟨g1, pre', q, post', cc, a', rfl, g2, g3, g4⟩ := ih.mp ⟨pre, post, h3, fun z hz => h2 z (List.mem_cons_of_mem _ hz)⟩
          refine ⟨g1, p :: pre', q, post', cc, a', rfl, g2, ?_, g4⟩
          intro z hz
          rcases List.mem_cons.mp hz with rfl | hz
          · intro c' a'' h
            have := (awsSays_unique hsay h).1
            apply hy
            rw [this, ← g1]
          · exact g3 z hz
      · rintro ⟨g1, pre, q, post, cc, a', h0, g2, g3, g4⟩
        cases pre with
        | nil =>
          injection h0 with h0 h5
          subst h0
          obtain ⟨e1, e2, e3⟩ := awsSays_unique hsay g2
          subst e1 e2 e3
          refine ⟨[], awsRows e name l, ?_, by simp⟩
          obtain ⟨k1, k2⟩ := k
          simp only at g1 ⊢
          subst g1 g4
          rfl
        | cons y pre =>
          injection h0 with h0 h5
          subst h0
          obtain ⟨pre', post', e1, e2⟩ := ih.mpr ⟨g1, pre, q, post, cc, a', h5, g2, fun z hz => g3 z (List.mem_cons_of_mem _ hz), g4⟩
          refine ⟨awsRow name (n, c, a) :: pre', post', by rw [e1]; rfl, ?_⟩
          intro z hz
          rcases List.mem_cons.mp hz with rfl | hz
          · intro h
            have : k.1 = n := (congrArg Prod.fst h).symm
            rw [← this] at hsay
            exact g3 _ List.mem_cons_self _ _ hsay
          · exact e2 z hz

theorem awsList_iff {feed : Json} {key : String} {l : List Json} : awsList feed (ascii key) = some l ↔ JsonList feed key l := by
  unfold JsonList
  cases feed with
  | object o =>
    have hlist : awsList (.object o) (ascii key) = match o.reverse.find? fun x => decide (x.1 = ascii key) with
      | none => some []
      | some (_, .list l) => some l
      | some _ => none := rfl
    rw [hlist, jsonAt_iff, jsonLacks_iff]
    cases hf : o.reverse.find? fun x => decide (x.1 = ascii key) with
    | none =>
      simp only [Option.some.injEq, reduceCtorEq, false_or, true_and]
      exact eq_comm
    | some x =>
      obtain ⟨k, v⟩ := x
      have hk : k = ascii key := (find_last.mp hf).1
      subst hk
      simp only [Option.some.injEq, Prod.mk.injEq, true_and, reduceCtorEq, false_and, or_false]
      cases v with
      | list l' => simp only [Option.some.injEq, Json.list.injEq]
      | _ => simp
  | _ =>
    constructor
    · intro h; cases h
    · rintro (h | ⟨h, -⟩)
      · obtain ⟨o, h⟩ := jsonAt_object h; cases h
      · obtain ⟨o, h⟩ := jsonLacks_object h; cases h

theorem awsEntries_iff {feed : Json} {l : List Json} : AwsEntries feed l ↔
    ∃ l6 l4, awsList feed strPrefixes6 = some l6 ∧ awsList feed strPrefixes = some l4 ∧ l = l6 ++ l4 := by
  obtain ⟨s6, s4, -⟩ := strs_feed
  unfold AwsEntries
  rw [s6, s4]
  simp only [awsList_iff]

theorem awsEntries_unique {feed : Json} {l l' : List Json} (h : AwsEntries feed l) (h' : AwsEntries feed l') : l = l' := by
  rw [awsEntries_iff] at h h'
  obtain ⟨a, b, h1, h2, rfl⟩ := h
  obtain ⟨a', b', h1', h2', rfl⟩ := h'
  rw [h1] at h1'
  rw [h2] at h2'
  cases h1'
  cases h2'
  rfl

/-! ## Rows of one source -/

/-- No rows of this source. -/
def NoneFrom (name : CStr) (t : FeedTables) : Prop := (∀ x ∈ t.networks, x.1.2 ≠ name) ∧ ∀ x ∈ t.autnums, x.1.2 ≠ name

/-- The tables after reading a feed: the rows of other sources as before, those of this source as the file has them. -/
structure FeedRead (e : FeedEnv) (name : CStr) (kind : FeedKind) (f : Bytes) (t t' : FeedTables) : Prop where
  networks : ∀ n src m, ((n, src), m) ∈ t'.networks ↔ if src = name then FeedNetwork e kind f n m else ((n, src), m) ∈ t.networks
  autnums : ∀ k src m, ((k, src), m) ∈ t'.autnums ↔ if src = name then FeedAutnum e kind f k m else ((k, src), m) ∈ t.autnums
  networkKeys : (t.networks.map (·.1)).Nodup → (t'.networks.map (·.1)).Nodup
  autnumKeys : (t.autnums.map (·.1)).Nodup → (t'.autnums.map (·.1)).Nodup

theorem importAws_spec {e : FeedEnv} {name : CStr} {t : FeedTables} {f : Bytes} (ht : NoneFrom name t) :
    (FeedReadable e .aws f → ∃ t', importAws e name t f = some t' ∧ FeedRead e name .aws f t t') ∧
    (¬ FeedReadable e .aws f → importAws e name t f = none) := by
  constructor
  · rintro ⟨feed, l, h1, h2, h3⟩
    obtain ⟨l6, l4, g1, g2, rfl⟩ := awsEntries_iff.mp h2
    refine ⟨{ t with networks := (awsRows e name (l6 ++ l4)).foldl (fun t x => putNew t x.1 x.2) t.networks }, ?_, ?_⟩
    · unfold importAws
      rw [h1]
      simp only [g1, g2]
      exact awsPrefixes_spec.1 h3
    · constructor
      · intro n src m
        simp only
        rw [mem_foldl_putNew, mem_awsRows]
        simp only
        by_cases hs : src = name
        · subst hs
          rw [if_pos rfl]
          constructor
          · rintro (h | ⟨-, -, pre, p, post, cc, a, h4, h5⟩)
            · exact absurd rfl (ht.1 _ h)
            · exact ⟨feed, pre, p, post, cc, a, h1, h4 ▸ h2, h5⟩
          · rintro ⟨feed', pre, p, post, cc, a, g3, g4, g5⟩
            rw [h1] at g3
            cases g3
            refine .inr ⟨?_, rfl, pre, p, post, cc, a, awsEntries_unique h2 g4, g5⟩
            intro h
            obtain ⟨x, hx, hk⟩ := List.mem_map.mp h
            exact ht.1 x hx (by rw [hk])
        · rw [if_neg hs]
          constructor
          · rintro (h | ⟨-, h, -⟩)
            · exact h
            · exact absurd h hs
          · exact .inl
      · intro k src m
        simp only
        by_cases hs : src = name
        · subst hs
          rw [if_pos rfl]
          constructor
          · intro h; exact absurd rfl (ht.2 _ h)
          · intro h; exact h.elim
        · rw [if_neg hs]
      · exact fun h => keys_foldl_putNew h
      · exact fun h => h
  · intro h
    unfold importAws
    cases h1 : e.json f with
    | none => rfl
    | some feed =>
      simp only
      cases g1 : awsList feed strPrefixes6 with
      | none => rfl
      | some l6 =>
        cases g2 : awsList feed strPrefixes with
        | none => rfl
        | some l4 =>
          simp only
          apply awsPrefixes_spec.2
          intro h3
          exact h ⟨feed, l6 ++ l4, h1, awsEntries_iff.mpr ⟨l6, l4, g1, g2, rfl⟩, h3⟩

/-! ## Spamhaus -/

theorem beforeComment_iff {line s : Bytes} : BeforeComment line s ↔ line.takeWhile (· ≠ 59) = s := by
  unfold BeforeComment
  constructor
  · rintro ⟨h1, rfl | ⟨c, rfl⟩⟩
    · rw [List.takeWhile_eq_self_iff]
      intro c hc
      simp only [decide_eq_true_eq, ne_eq]
      rintro rfl
      exact h1 hc
    · rw [List.takeWhile_append_of_pos]
      · simp
      · intro c hc
        simp only [decide_eq_true_eq, ne_eq]
        rintro rfl
        exact h1 hc
  · rintro rfl
    constructor
    · intro h
      have := List.mem_takeWhile_imp h
      simp at this
    · have h := List.takeWhile_append_dropWhile (p := fun c : Byte => decide (c ≠ 59)) (l := line)
      cases hd : line.dropWhile (fun c : Byte => decide (c ≠ 59)) with
      | nil =>
        rw [hd, List.append_nil] at h
        exact .inl h.symm
      | cons c rest =>
        have hc : c = 59 := by
          have := List.head_dropWhile_not (fun c : Byte => decide (c ≠ 59)) (l := line) (by rw [hd]; simp)
          simp only [hd, List.head_cons] at this
          simpa using this
        subst hc
        rw [hd] at h
        exact .inr ⟨rest, h.symm⟩

/-- The line without the table: nothing, or a network. -/
def dropSay (e : FeedEnv) (line : Bytes) : Option Network :=
  (ipNetworkStrict (pyStrip (line.takeWhile (· ≠ 59)))).filter (checkNetwork e.whois)

theorem dropSay_iff {e : FeedEnv} {line : Bytes} {n : Network} : dropSay e line = some n ↔ DropSays e line n := by
  unfold dropSay DropSays
  rw [Option.filter_eq_some_iff]
  constructor
  · rintro ⟨h1, h2⟩
    have hx := ipNetworkStrict_iff.mp h1
    exact ⟨_, _, beforeComment_iff.mpr rfl, bothTrimmed_iff.mpr rfl, hx, (exactly_check hx).mp h2⟩
  · rintro ⟨s, s', h1, h2, h3, h4⟩
    rw [beforeComment_iff.mp h1, bothTrimmed_iff.mp h2]
    exact ⟨ipNetworkStrict_iff.mpr h3, (exactly_check h3).mpr h4⟩

/-- A line that is empty names no network. -/
theorem strict_empty : ipNetworkStrict (pyStrip []) = none := by decide +kernel

theorem dropSay_empty {e : FeedEnv} {line : Bytes} (h : (line.takeWhile (· ≠ 59)).isEmpty = true) : dropSay e line = none := by
  have h : line.takeWhile (· ≠ 59) = [] := by simpa using h
  unfold dropSay
  rw [h, strict_empty]
  rfl

def putDrop {κ : Type} [DecidableEq κ] (name : CStr) (t : List ((κ × CStr) × Marks)) : Option κ → Option (List ((κ × CStr) × Marks))
  | none => some t
  | some n => putOnce t (n, name) dropMarks

theorem dropLine_say (e : FeedEnv) (name : CStr) (t : FeedTables) (line : Bytes) :
    dropLine e name t line = (putDrop name t.networks (dropSay e line)).map fun networks =>
      ({ t with networks }, !(line.takeWhile (· ≠ 59)).isEmpty) := by
  unfold dropLine
  cases hl : (line.takeWhile (· ≠ 59)).isEmpty with
  | true =>
    rw [dropSay_empty hl]
    rfl
  | false =>
    simp only [Bool.false_eq_true, if_false]
    unfold dropSay
    cases ipNetworkStrict (pyStrip (line.takeWhile (· ≠ 59))) with
    | none => rfl
    | some n =>
      cases hc : checkNetwork e.whois n with
      | false =>
        simp only [Bool.not_false, if_true, Option.filter_some, hc]
        rfl
      | true =>
        simp only [Bool.not_true, Bool.false_eq_true, if_false, Option.filter_some, hc, if_true]
        unfold putDrop
        simp only [dropMarks]
        cases putOnce t.networks (n, name) ⟨none, none, none, none, some true⟩ <;> rfl

/-- Rows that must not be there yet. -/
def putDrops {κ : Type} [DecidableEq κ] (name : CStr) (t : List ((κ × CStr) × Marks)) : List (Option κ) → Option (List ((κ × CStr) × Marks))
  | [] => some t
  | o :: os =>
    match putDrop name t o with
    | none => none
    | some t => putDrops name t os

theorem dropLines_says {e : FeedEnv} {name : CStr} {ls : List Bytes} : ∀ {t : FeedTables} {lines : Bool},
    dropLines e name t lines ls = if lines = true ∨ ∃ l ∈ ls, l.takeWhile (· ≠ 59) ≠ []
      then (putDrops name t.networks (ls.map (dropSay e))).map fun networks => { t with networks } else none := by
  induction ls with
  | nil =>
    intro t lines
    unfold dropLines
    cases lines <;> simp [putDrops]
  | cons l ls ih =>
    intro t lines
    unfold dropLines
    rw [dropLine_say]
    simp only [List.map_cons, putDrops]
    cases putDrop name t.networks (dropSay e l) with
    | none => simp
    | some networks =>
      simp only [Option.map_some]
      rw [ih]
      have hc : ((lines || !(l.takeWhile (· ≠ 59)).isEmpty) = true ∨ ∃ l ∈ ls, l.takeWhile (· ≠ 59) ≠ []) ↔
          (lines = true ∨ ∃ l' ∈ l :: ls, l'.takeWhile (· ≠ 59) ≠ []) := by
        have he : (!(l.takeWhile (· ≠ 59)).isEmpty) = true ↔ l.takeWhile (· ≠ 59) ≠ [] := by simp
        rw [Bool.or_eq_true, he]
        constructor
        · rintro ((h | h) | ⟨l', h1, h2⟩)
          · exact .inl h
          · exact .inr ⟨l, List.mem_cons_self, h⟩
          · exact .inr ⟨l', List.mem_cons_of_mem _ h1, h2⟩
        · rintro (h | ⟨l', h1, h2⟩)
          · exact .inl (.inl h)
          · rcases List.mem_cons.mp h1 with rfl | h1
            · exact .inl (.inr h2)
            · exact .inr ⟨l', h1, h2⟩
      simp only [hc]

/-- They go in if they differ from each other and from those in the table. -/
theorem putDrops_spec {κ : Type} [DecidableEq κ] {name : CStr} {os : List (Option κ)} : ∀ {t : List ((κ × CStr) × Marks)},
    ((os.Pairwise fun o o' => ∀ n, ¬ (o = some n ∧ o' = some n)) ∧ (∀ n, some n ∈ os → (n, name) ∉ t.map (·.1)) →
      putDrops name t os = some (t ++ (os.filterMap id).map fun n => ((n, name), dropMarks))) ∧
    (¬ ((os.Pairwise fun o o' => ∀ n, ¬ (o = some n ∧ o' = some n)) ∧ ∀ n, some n ∈ os → (n, name) ∉ t.map (·.1)) →
      putDrops name t os = none) := by
  induction os with
  | nil =>
    intro t
    exact ⟨fun _ => by simp [putDrops], fun h => absurd ⟨List.Pairwise.nil, by simp⟩ h⟩
  | cons o os ih =>
    intro t
    unfold putDrops
    cases o with
    | none =>
      have h1 : (none :: os).Pairwise (fun (o o' : Option κ) => ∀ n, ¬ (o = some n ∧ o' = some n)) ↔
          os.Pairwise fun o o' => ∀ n, ¬ (o = some n ∧ o' = some n) := by
        rw [List.pairwise_cons]
        exact ⟨fun h => h.2, fun h => ⟨fun o' _ n hn => (by cases hn.1), h⟩⟩
      have h2 : (∀ n, some n ∈ none :: os → (n, name) ∉ t.map (·.1)) ↔ ∀ n, some n ∈ os → (n, name) ∉ t.map (·.1) := by
        constructor
        · exact fun h n hn => h n (List.mem_cons_of_mem _ hn)
        · intro h n hn
          rcases List.mem_cons.mp hn with hn | hn
          · cases hn
          · exact h n hn
      rw [h1, h2]
      exact ih
    | some n =>
      simp only [putDrop, putOnce]
      by_cases hk : (n, name) ∈ t.map (·.1)
      · rw [if_pos (any_key.mpr hk)]
        exact ⟨fun h => absurd hk (h.2 n List.mem_cons_self), fun _ => rfl⟩
      · rw [if_neg (fun h => hk (any_key.mp h))]
        simp only
        have hiff : ((some n :: os).Pairwise (fun (o o' : Option κ) => ∀ n, ¬ (o = some n ∧ o' = some n)) ∧
              ∀ n', some n' ∈ some n :: os → (n', name) ∉ t.map (·.1)) ↔
            ((os.Pairwise fun o o' => ∀ n, ¬ (o = some n ∧ o' = some n)) ∧
              ∀ n', some n' ∈ os → (n', name) ∉ (t ++ [((n, name), dropMarks)]).map (·.1)) := by
          rw [List.pairwise_cons]
          constructor
          · rintro ⟨⟨h1, h2⟩, h3⟩
            refine ⟨h2, fun n' hn' h => ?_⟩
            rw [List.map_append, List.mem_append] at h
            rcases h with h | h
            · exact h3 n' (List.mem_cons_of_mem _ hn') h
            · have : n' = n := by simpa using h
              subst this
              exact h1 _ hn' n' ⟨rfl, rfl⟩
          · rintro ⟨h2, h3⟩
            refine ⟨⟨fun o' ho' n' ⟨hn, hn'⟩ => ?_, h2⟩, fun n' hn' h => ?_⟩
            · subst hn'
              cases hn
              exact h3 n ho' (by simp)
            · rcases List.mem_cons.mp hn' with hn' | hn'
              · cases hn'
                exact hk h
              · exact h3 n' hn' (by rw [List.map_append, List.mem_append]; exact .inl h)
        rw [hiff]
        constructor
        · intro h
          rw [ih.1 h]
          simp
        · exact ih.2

/-- The tables after that. -/
theorem putDrops_keys {κ : Type} [DecidableEq κ] {name : CStr} {os : List (Option κ)} {t t' : List ((κ × CStr) × Marks)}
    (h : putDrops name t os = some t') (hn : (t.map (·.1)).Nodup) : (t'.map (·.1)).Nodup := by
  induction os generalizing t with
  | nil =>
    injection h with h
    rw [← h]; exact hn
  | cons o os ih =>
    unfold putDrops at h
    cases o with
    | none => exact ih h hn
    | some n =>
      simp only [putDrop, putOnce] at h
      by_cases hk : (n, name) ∈ t.map (·.1)
      · rw [if_pos (any_key.mpr hk)] at h
        cases h
      · rw [if_neg (fun h => hk (any_key.mp h))] at h
        refine ih h ?_
        rw [List.map_append, List.nodup_append]
        refine ⟨hn, by simp, ?_⟩
        intro a ha b hb
        have : b = (n, name) := by simpa using hb
        rw [this]
        rintro rfl
        exact hk ha

theorem dropFeed_spec {e : FeedEnv} {name : CStr} {t : FeedTables} {f : Bytes} (ht : NoneFrom name t) :
    (FeedReadable e .drop f → ∃ t', dropLines e name t false (fileLines f) = some t' ∧ FeedRead e name .drop f t t') ∧
    (¬ FeedReadable e .drop f → dropLines e name t false (fileLines f) = none) := by
  have hnew : ∀ n, some n ∈ (fileLines f).map (dropSay e) → (n, name) ∉ t.networks.map (·.1) := by
    intro n _ h
    obtain ⟨x, hx, hk⟩ := List.mem_map.mp h
    exact ht.1 x hx (by rw [hk])
  have hpair : (((fileLines f).map (dropSay e)).Pairwise fun o o' => ∀ n, ¬ (o = some n ∧ o' = some n)) ↔
      (fileLines f).Pairwise fun l l' => ∀ n, ¬ (DropSays e l n ∧ DropSays e l' n) := by
    rw [List.pairwise_map]
    simp only [dropSay_iff]
  have hany : (false = true ∨ ∃ l ∈ fileLines f, l.takeWhile (· ≠ 59) ≠ []) ↔ ∃ l ∈ fileLines f, ∃ s, BeforeComment l s ∧ s ≠ [] := by
    constructor
    · rintro (h | ⟨l, h1, h2⟩)
      · cases h
      · exact ⟨l, h1, _, beforeComment_iff.mpr rfl, h2⟩
    · rintro ⟨l, h1, s, h2, h3⟩
      rw [← beforeComment_iff.mp h2] at h3
      exact .inr ⟨l, h1, h3⟩
  rw [dropLines_says]
  constructor
  · rintro ⟨lines, h1, h2, h3⟩
    rw [← fileLines_unique h1] at h2 h3
    rw [if_pos (hany.mpr h2)]
    have hp := putDrops_spec.1 ⟨hpair.mpr h3, hnew⟩
    refine ⟨_, by rw [hp]; rfl, ?_⟩
    constructor
    · intro n src m
      simp only
      rw [List.mem_append, List.mem_map]
      simp only [List.mem_filterMap, id_eq, exists_eq_right, List.mem_map]
      by_cases hs : src = name
      · subst hs
        rw [if_pos rfl]
        unfold FeedNetwork
        constructor
        · rintro (h | ⟨n', ⟨l, hl, hl'⟩, he⟩)
          · exact absurd rfl (ht.1 _ h)
          · cases he
            exact ⟨rfl, _, isLines_exists f, l, hl, dropSay_iff.mp hl'⟩
        · rintro ⟨rfl, lines', g1, l, hl, hl'⟩
          rw [← fileLines_unique g1] at hl
          exact .inr ⟨n, ⟨l, hl, dropSay_iff.mpr hl'⟩, rfl⟩
      · rw [if_neg hs]
        constructor
        · rintro (h | ⟨n', -, he⟩)
          · exact h
          · cases he
            exact absurd rfl hs
        · exact .inl
    · intro k src m
      simp only
      by_cases hs : src = name
      · subst hs
        rw [if_pos rfl]
        exact ⟨fun h => absurd rfl (ht.2 _ h), fun h => h.elim⟩
      · rw [if_neg hs]
    · exact fun h => putDrops_keys hp h
    · exact fun h => h
  · intro h
    by_cases hc : false = true ∨ ∃ l ∈ fileLines f, l.takeWhile (· ≠ 59) ≠ []
    · rw [if_pos hc, putDrops_spec.2]
      · rfl
      · rintro ⟨h1, -⟩
        exact h ⟨_, isLines_exists f, hany.mp hc, hpair.mp h1⟩
    · rw [if_neg hc]

/-! ## ASNDROP -/

/-- The line without the table: an exception, nothing, or an AS. -/
def asndropSay (e : FeedEnv) (line : Bytes) : Option (Option Nat) :=
  match e.json line with
  | none => some none
  | some j =>
    match j.get strType, j.get strAsn with
    | some type, some asn =>
      if type.isMetadata then some none
      else if !asn.truthy then some none
      else
        match asn with
        | .number i => if !checkAsn i then some none else some (some i.toNat)
        | _ => none
    | _, _ => none

theorem asndropLine_say (e : FeedEnv) (name : CStr) (t : FeedTables) (line : Bytes) :
    asndropLine e name t line = (asndropSay e line).bind fun o => (putDrop name t.autnums o).map fun autnums => { t with autnums } := by
  unfold asndropLine asndropSay
  cases e.json line with
  | none => rfl
  | some j =>
    simp only
    cases j.get strType with
    | none => rfl
    | some type =>
      cases j.get strAsn with
      | none => rfl
      | some asn =>
        simp only
        by_cases h1 : type.isMetadata = true
        · rw [if_pos h1, if_pos h1]; rfl
        · rw [if_neg h1, if_neg h1]
          by_cases h2 : (!asn.truthy) = true
          · rw [if_pos h2, if_pos h2]; rfl
          · rw [if_neg h2, if_neg h2]
            cases asn with
            | number i =>
              simp only
              by_cases h3 : (!checkAsn i) = true
              · rw [if_pos h3, if_pos h3]; rfl
              · rw [if_neg h3, if_neg h3]; rfl
            | _ => rfl

theorem isMetadata_iff {j : Json} {type : Json} (h : j.get strType = some type) :
    type.isMetadata = true ↔ JsonAt j "type" (.text (ascii "metadata")) := by
  obtain ⟨-, -, -, -, -, -, -, -, st, sm, -⟩ := strs_feed
  rw [st] at h
  rw [← get_text, h]
  cases type with
  | text s => simp [Json.isMetadata, sm]
  | _ => simp [Json.isMetadata]

theorem checkAsn_int {i : Int} : checkAsn i = true ↔ ∃ k : Nat, i = k ∧ ((1 ≤ k ∧ k ≤ 23455) ∨ (23457 ≤ k ∧ k ≤ 64495) ∨ (131072 ≤ k ∧ k ≤ 4199999999)) := by
  constructor
  · intro h
    have hi := checkAsn_pos h
    rw [hi] at h
    exact ⟨i.toNat, hi, checkAsn_iff.mp h⟩
  · rintro ⟨k, rfl, h⟩
    exact checkAsn_iff.mpr h

theorem asndropSay_some {e : FeedEnv} {line : Bytes} {k : Nat} : asndropSay e line = some (some k) ↔ AsndropSays e line k := by
  obtain ⟨-, -, -, -, -, -, -, -, st, sm, sa⟩ := strs_feed
  unfold AsndropSays
  constructor
  · intro h
    unfold asndropSay at h
    split at h
    · cases h
    · rename_i j hj
      split at h
      · rename_i type asn ht ha
        split at h
        · cases h
        · rename_i h1
          split at h
          · cases h
          · split at h
            · rename_i i
              split at h
              · cases h
              · rename_i h3
                injection h with h
                injection h with h
                obtain ⟨k', hk, hr⟩ := checkAsn_int.mp (by simpa using h3)
                have : k' = k := by omega
                subst this
                rw [sa, hk] at ha
                exact ⟨j, hj, fun hm => h1 ((isMetadata_iff ht).mpr hm), get_number.mp ha, hr⟩
            · cases h
      · cases h
  · rintro ⟨j, hj, h1, h2, h3⟩
    obtain ⟨o, ho⟩ := jsonAt_object h2
    have ⟨type, ht⟩ : ∃ type, j.get strType = some type := by
      cases h : j.get strType with
      | none => exact absurd ⟨o, ho⟩ (get_none.mp h)
      | some x => exact ⟨x, rfl⟩
    have ha := get_number.mpr h2
    rw [← sa] at ha
    have hm : type.isMetadata = false := by
      rw [Bool.eq_false_iff]
      exact fun h => h1 ((isMetadata_iff ht).mp h)
    have hc : checkAsn (k : Int) = true := checkAsn_iff.mpr h3
    have htr : (Json.number (k : Int)).truthy = true := by
      simp only [Json.truthy, decide_eq_true_eq]
      omega
    unfold asndropSay
    simp only [hj, ht, ha, hm, htr, hc, Bool.not_true, Bool.false_eq_true, if_false]
    simp

theorem asndropSay_sane {e : FeedEnv} {line : Bytes} : asndropSay e line ≠ none ↔ AsndropSane e line := by
  obtain ⟨-, -, -, -, -, -, -, -, st, sm, sa⟩ := strs_feed
  unfold AsndropSane
  cases hj : e.json line with
  | none =>
    unfold asndropSay
    rw [hj]
    simp
  | some j =>
    have hred : (∀ j', some j = some j' → (∃ o, j' = .object o) ∧
        (¬ JsonAt j' "type" (.text (ascii "metadata")) → JsonBlank j' "asn" ∨ ∃ i, JsonAt j' "asn" (.number i))) ↔
        ((∃ o, j = .object o) ∧ (¬ JsonAt j "type" (.text (ascii "metadata")) → JsonBlank j "asn" ∨ ∃ i, JsonAt j "asn" (.number i))) :=
      ⟨fun h => h j rfl, fun h j' hj' => by cases hj'; exact h⟩
    rw [hred]
    unfold asndropSay
    rw [hj]
    simp only
    cases ht : j.get strType with
    | none =>
      have := get_none.mp ht
      simp only [ne_eq, not_true_eq_false, false_iff, not_and]
      exact fun h => absurd h this
    | some type =>
      have hobj : ∃ o, j = .object o := Classical.byContradiction fun h => by rw [get_none.mpr h] at ht; cases ht
      cases ha : j.get strAsn with
      | none => exact absurd hobj (get_none.mp ha)
      | some asn =>
        simp only
        by_cases h1 : type.isMetadata = true
        · rw [if_pos h1]
          simp only [ne_eq, reduceCtorEq, not_false_eq_true, true_iff]
          exact ⟨hobj, fun h => absurd ((isMetadata_iff ht).mp h1) h⟩
        · rw [if_neg h1]
          have hnm : ¬ JsonAt j "type" (.text (ascii "metadata")) := fun h => h1 ((isMetadata_iff ht).mpr h)
          by_cases h2 : (!asn.truthy) = true
          · rw [if_pos h2]
            simp only [ne_eq, reduceCtorEq, not_false_eq_true, true_iff]
            refine ⟨hobj, fun _ => .inl (blank_iff.mpr ⟨asn, by rw [← sa]; exact ha, by simpa using h2⟩)⟩
          · rw [if_neg h2]
            have hnb : ¬ JsonBlank j "asn" := by
              intro hb
              obtain ⟨v, hv1, hv2⟩ := blank_iff.mp hb
              rw [← sa, ha] at hv1
              cases hv1
              rw [hv2] at h2
              exact h2 rfl
            cases asn with
            | number i =>
              simp only
              have : (if (!checkAsn i) = true then some none else some (some i.toNat)) ≠ none := by split <;> simp
              simp only [this, not_false_eq_true, true_iff, ne_eq]
              exact ⟨hobj, fun _ => .inr ⟨i, get_number.mp (by rw [← sa]; exact ha)⟩⟩
            | _ =>
              simp only [ne_eq, not_true_eq_false, false_iff, not_and]
              intro _ h
              rcases h hnm with h | ⟨i, h⟩
              · exact hnb h
              · have := get_number.mpr h
                rw [← sa, ha] at this
                cases this

theorem asndropLines_says {e : FeedEnv} {name : CStr} {ls : List Bytes} : ∀ {t : FeedTables},
    ((∀ l ∈ ls, AsndropSane e l) → asndropLines e name t ls =
      (putDrops name t.autnums (ls.map fun l => (asndropSay e l).join)).map fun autnums => { t with autnums }) ∧
    ((¬ ∀ l ∈ ls, AsndropSane e l) → asndropLines e name t ls = none) := by
  induction ls with
  | nil => exact fun {t} => ⟨fun _ => rfl, fun h => absurd (by simp) h⟩
  | cons l ls ih =>
    intro t
    unfold asndropLines
    rw [asndropLine_say]
    by_cases hl : AsndropSane e l
    · obtain ⟨o, ho⟩ := Option.ne_none_iff_exists'.mp (asndropSay_sane.mpr hl)
      have hall : (∀ l' ∈ l :: ls, AsndropSane e l') ↔ ∀ l' ∈ ls, AsndropSane e l' := by simp [hl]
      rw [hall, ho]
      simp only [Option.bind_some, List.map_cons, ho, putDrops]
      have hjoin : (some o).join = o := rfl
      rw [hjoin]
      cases putDrop name t.autnums o with
      | none => exact ⟨fun _ => rfl, fun _ => rfl⟩
      | some autnums =>
        simp only [Option.map_some]
        exact ih
    · have hn : asndropSay e l = none := Classical.byContradiction fun h => hl (asndropSay_sane.mp h)
      rw [hn]
      exact ⟨fun h => absurd (h l List.mem_cons_self) hl, fun _ => rfl⟩

theorem join_says {e : FeedEnv} {l : Bytes} {k : Nat} : (asndropSay e l).join = some k ↔ AsndropSays e l k := by
  rw [← asndropSay_some]
  cases asndropSay e l with
  | none => simp
  | some o => simp

theorem asndropFeed_spec {e : FeedEnv} {name : CStr} {t : FeedTables} {f : Bytes} (ht : NoneFrom name t) :
    (FeedReadable e .asndrop f → ∃ t', asndropLines e name t (fileLines f) = some t' ∧ FeedRead e name .asndrop f t t') ∧
    (¬ FeedReadable e .asndrop f → asndropLines e name t (fileLines f) = none) := by
  have hnew : ∀ n, some n ∈ (fileLines f).map (fun l => (asndropSay e l).join) → (n, name) ∉ t.autnums.map (·.1) := by
    intro n _ h
    obtain ⟨x, hx, hk⟩ := List.mem_map.mp h
    exact ht.2 x hx (by rw [hk])
  have hpair : (((fileLines f).map fun l => (asndropSay e l).join).Pairwise fun o o' => ∀ n, ¬ (o = some n ∧ o' = some n)) ↔
      (fileLines f).Pairwise fun l l' => ∀ n, ¬ (AsndropSays e l n ∧ AsndropSays e l' n) := by
    rw [List.pairwise_map]
    simp only [join_says]
  constructor
  · rintro ⟨lines, h1, h2, h3⟩
    rw [← fileLines_unique h1] at h2 h3
    have hp := putDrops_spec.1 ⟨hpair.mpr h3, hnew⟩
    refine ⟨_, by rw [asndropLines_says.1 h2, hp]; rfl, ?_⟩
    constructor
    · intro n src m
      simp only
      by_cases hs : src = name
      · subst hs
        rw [if_pos rfl]
        exact ⟨fun h => absurd rfl (ht.1 _ h), fun h => h.elim⟩
      · rw [if_neg hs]
    · intro n src m
      simp only
      rw [List.mem_append, List.mem_map]
      simp only [List.mem_filterMap, id_eq, exists_eq_right, List.mem_map]
      by_cases hs : src = name
      · subst hs
        rw [if_pos rfl]
        unfold FeedAutnum
        constructor
        · rintro (h | ⟨n', ⟨l, hl, hl'⟩, he⟩)
          · exact absurd rfl (ht.2 _ h)
          · cases he
            exact ⟨rfl, _, isLines_exists f, l, hl, join_says.mp hl'⟩
        · rintro ⟨rfl, lines', g1, l, hl, hl'⟩
          rw [← fileLines_unique g1] at hl
          exact .inr ⟨n, ⟨l, hl, join_says.mpr hl'⟩, rfl⟩
      · rw [if_neg hs]
        constructor
        · rintro (h | ⟨n', -, he⟩)
          · exact h
          · cases he
            exact absurd rfl hs
        · exact .inl
    · exact fun h => h
    · exact fun h => putDrops_keys hp h
  · intro h
    by_cases hc : ∀ l ∈ fileLines f, AsndropSane e l
    · rw [asndropLines_says.1 hc, putDrops_spec.2]
      · rfl
      · rintro ⟨h1, -⟩
        exact h ⟨_, isLines_exists f, hc, hpair.mp h1⟩
    · exact asndropLines_says.2 hc

/-! ## One feed -/

theorem noneFrom_dropSource (name : CStr) (t : FeedTables) : NoneFrom name (dropSource name t) := by
  constructor
  · intro x hx
    exact of_decide_eq_true (List.mem_filter.mp hx).2
  · intro x hx
    exact of_decide_eq_true (List.mem_filter.mp hx).2

theorem readFeed_spec {e : FeedEnv} {name : CStr} {kind : FeedKind} {t : FeedTables} {f : Bytes} (ht : NoneFrom name t) :
    (FeedReadable e kind f → ∃ t', readFeed e name kind t f = some t' ∧ FeedRead e name kind f t t') ∧
    (¬ FeedReadable e kind f → readFeed e name kind t f = none) := by
  cases kind with
  | aws => exact importAws_spec ht
  | drop => exact dropFeed_spec ht
  | asndrop => exact asndropFeed_spec ht

theorem processFeed_spec (e : FeedEnv) (name : CStr) (kind : FeedKind) (url : CStr) (t : FeedTables) :
    (∀ f, FeedWorks e kind url f → ∃ t', processFeed e name kind url t = some t' ∧ FeedRead e name kind f t t') ∧
    ((∀ f, ¬ FeedWorks e kind url f) → processFeed e name kind url t = none) := by
  unfold processFeed FeedWorks
  constructor
  · rintro f ⟨h1, h2⟩
    rw [h1]
    obtain ⟨t', h3, h4⟩ := (readFeed_spec (noneFrom_dropSource name t)).1 h2
    refine ⟨t', h3, ?_, ?_, ?_, ?_⟩
    · intro n src m
      rw [h4.networks]
      by_cases hs : src = name
      · rw [if_pos hs, if_pos hs]
      · rw [if_neg hs, if_neg hs]
        unfold dropSource
        simp [hs]
    · intro n src m
      rw [h4.autnums]
      by_cases hs : src = name
      · rw [if_pos hs, if_pos hs]
      · rw [if_neg hs, if_neg hs]
        unfold dropSource
        simp [hs]
    · exact fun h => h4.networkKeys (h.sublist (List.Sublist.map _ List.filter_sublist))
    · exact fun h => h4.autnumKeys (h.sublist (List.Sublist.map _ List.filter_sublist))
  · intro h
    cases hr : e.retrieve url with
    | none => rfl
    | some f => exact (readFeed_spec (noneFrom_dropSource name t)).2 fun h2 => h f ⟨hr, h2⟩

/-! ## All feeds -/

/-- The feed was asked for, and its file works. -/
def Updated (e : FeedEnv) (requested : List CStr) (x : CStr × FeedKind × CStr) (f : Bytes) : Prop :=
  FeedRequested requested x.1 ∧ FeedWorks e x.2.1 x.2.2 f

theorem eachFeed_spec {e : FeedEnv} {requested : List CStr} {fs : List (CStr × FeedKind × CStr)} : (fs.map (·.1)).Nodup → ∀ {t : FeedTables} {ok : Bool},
    ((eachFeed e requested fs (t, ok)).2 = true ↔ ok = true ∧ ∀ x ∈ fs, FeedRequested requested x.1 → ∃ f, FeedWorks e x.2.1 x.2.2 f) ∧
    (∀ n src m, ((n, src), m) ∈ (eachFeed e requested fs (t, ok)).1.networks ↔
      (∃ x ∈ fs, x.1 = src ∧ ∃ f, Updated e requested x f ∧ FeedNetwork e x.2.1 f n m) ∨
      ((∀ x ∈ fs, x.1 = src → ∀ f, ¬ Updated e requested x f) ∧ ((n, src), m) ∈ t.networks)) ∧
    (∀ n src m, ((n, src), m) ∈ (eachFeed e requested fs (t, ok)).1.autnums ↔
      (∃ x ∈ fs, x.1 = src ∧ ∃ f, Updated e requested x f ∧ FeedAutnum e x.2.1 f n m) ∨
      ((∀ x ∈ fs, x.1 = src → ∀ f, ¬ Updated e requested x f) ∧ ((n, src), m) ∈ t.autnums)) ∧
    ((t.networks.map (·.1)).Nodup → ((eachFeed e requested fs (t, ok)).1.networks.map (·.1)).Nodup) ∧
    ((t.autnums.map (·.1)).Nodup → ((eachFeed e requested fs (t, ok)).1.autnums.map (·.1)).Nodup) := by
  induction fs with
  | nil => exact fun _ {t ok} => ⟨by simp [eachFeed], by simp [eachFeed], by simp [eachFeed], fun h => h, fun h => h⟩
  | cons x fs ih =>
    intro hnd t ok
    obtain ⟨name, kind, url⟩ := x
    rw [List.map_cons, List.nodup_cons] at hnd
    obtain ⟨hnew, hnd⟩ := hnd
    have hfresh : ∀ x ∈ fs, x.1 ≠ name := fun x hx h => hnew (List.mem_map.mpr ⟨x, hx, h⟩)
    -- the feed is skipped or does not work: nothing changes
    have hidle : (∀ f, ¬ Updated e requested (name, kind, url) f) → ∀ {α : Type} (P : (CStr × FeedKind × CStr) → Bytes → Prop) (src : CStr) (Q : Prop),
        ((∃ x ∈ (name, kind, url) :: fs, x.1 = src ∧ ∃ f, Updated e requested x f ∧ P x f) ∨
          ((∀ x ∈ (name, kind, url) :: fs, x.1 = src → ∀ f, ¬ Updated e requested x f) ∧ Q)) ↔
        ((∃ x ∈ fs, x.1 = src ∧ ∃ f, Updated e requested x f ∧ P x f) ∨ ((∀ x ∈ fs, x.1 = src → ∀ f, ¬ Updated e requested x f) ∧ Q)) := by
      intro hno α P src Q
      constructor
      · rintro (⟨x, hx, h1, f, h2, h3⟩ | ⟨h1, h2⟩)
        · rcases List.mem_cons.mp hx with rfl | hx
          · exact absurd h2 (hno f)
          · exact .inl ⟨x, hx, h1, f, h2, h3⟩
        · exact .inr ⟨fun x hx => h1 x (List.mem_cons_of_mem _ hx), h2⟩
      · rintro (⟨x, hx, h1, f, h2, h3⟩ | ⟨h1, h2⟩)
        · exact .inl ⟨x, List.mem_cons_of_mem _ hx, h1, f, h2, h3⟩
        · refine .inr ⟨fun x hx => ?_, h2⟩
          rcases List.mem_cons.mp hx with rfl | hx
          · exact fun _ => hno
          · exact h1 x hx
    unfold eachFeed
    by_cases hreq : requested ≠ [] ∧ name ∉ requested
    · rw [if_pos hreq]
      have hnr : ¬ FeedRequested requested name := by
        rintro (h | h)
        · exact hreq.1 h
        · exact hreq.2 h
      have hno : ∀ f, ¬ Updated e requested (name, kind, url) f := fun f h => hnr h.1
      obtain ⟨i1, i2, i3, i4, i5⟩ := ih hnd (t := t) (ok := ok)
      refine ⟨?_, fun n src m => ?_, fun n src m => ?_, i4, i5⟩
      · rw [i1]
        refine and_congr_right fun _ => ⟨fun h x hx hr => ?_, fun h x hx => h x (List.mem_cons_of_mem _ hx)⟩
        rcases List.mem_cons.mp hx with rfl | hx
        · exact absurd hr hnr
        · exact h x hx hr
      · rw [i2]; exact (hidle hno (α := Unit) (fun x f => FeedNetwork e x.2.1 f n m) src _).symm
      · rw [i3]; exact (hidle hno (α := Unit) (fun x f => FeedAutnum e x.2.1 f n m) src _).symm
    · rw [if_neg hreq]
      have hr : FeedRequested requested name := by
        unfold FeedRequested
        by_cases h1 : requested = []
        · exact .inl h1
        · exact .inr (Classical.byContradiction fun h2 => hreq ⟨h1, h2⟩)
      by_cases hw : ∃ f, FeedWorks e kind url f
      · obtain ⟨f, hf⟩ := hw
        obtain ⟨t', h1, h2⟩ := (processFeed_spec e name kind url t).1 f hf
        rw [h1]
        simp only
        obtain ⟨i1, i2, i3, i4, i5⟩ := ih hnd (t := t') (ok := ok)
        have hup : Updated e requested (name, kind, url) f := ⟨hr, hf⟩
        have huniq : ∀ f', Updated e requested (name, kind, url) f' → f' = f := by
          rintro f' ⟨-, h, -⟩
          have := hf.1
          rw [h] at this
          injection this
        have hmain : ∀ (P : (CStr × FeedKind × CStr) → Bytes → Prop) (src : CStr) (Q : Prop),
            ((∃ x ∈ fs, x.1 = src ∧ ∃ f, Updated e requested x f ∧ P x f) ∨
              ((∀ x ∈ fs, x.1 = src → ∀ f, ¬ Updated e requested x f) ∧ if src = name then P (name, kind, url) f else Q)) ↔
            ((∃ x ∈ (name, kind, url) :: fs, x.1 = src ∧ ∃ f, Updated e requested x f ∧ P x f) ∨
              ((∀ x ∈ (name, kind, url) :: fs, x.1 = src → ∀ f, ¬ Updated e requested x f) ∧ Q)) := by
          intro P src Q
          by_cases hs : src = name
          · subst hs
            rw [if_pos rfl]
            constructor
            · rintro (⟨x, hx, h1, -⟩ | ⟨-, h⟩)
              · exact absurd h1 (hfresh x hx)
              · exact .inl ⟨_, List.mem_cons_self, rfl, f, hup, h⟩
            · rintro (⟨x, hx, h1, f', h2, h3⟩ | ⟨h, -⟩)
              · rcases List.mem_cons.mp hx with rfl | hx
                · rw [huniq f' h2] at h3
                  exact .inr ⟨fun x hx h => absurd h (hfresh x hx), h3⟩
                · exact absurd h1 (hfresh x hx)
              · exact absurd hup (h _ List.mem_cons_self rfl f)
          · rw [if_neg hs]
            constructor
            · rintro (⟨x, hx, h1, f', h2, h3⟩ | ⟨h1, h2⟩)
              · exact .inl ⟨x, List.mem_cons_of_mem _ hx, h1, f', h2, h3⟩
              · refine .inr ⟨fun x hx h => ?_, h2⟩
                rcases List.mem_cons.mp hx with rfl | hx
                · exact absurd h.symm hs
                · exact h1 x hx h
            · rintro (⟨x, hx, h1, f', h2, h3⟩ | ⟨h1, h2⟩)
              · rcases List.mem_cons.mp hx with rfl | hx
                · exact absurd h1.symm hs
                · exact .inl ⟨x, hx, h1, f', h2, h3⟩
              · exact .inr ⟨fun x hx => h1 x (List.mem_cons_of_mem _ hx), h2⟩
        refine ⟨?_, fun n src m => ?_, fun n src m => ?_, fun h => i4 (h2.networkKeys h), fun h => i5 (h2.autnumKeys h)⟩
        · rw [i1]
          refine and_congr_right fun _ => ⟨fun h x hx hr => ?_, fun h x hx => h x (List.mem_cons_of_mem _ hx)⟩
          rcases List.mem_cons.mp hx with rfl | hx
          · exact ⟨f, hf⟩
          · exact h x hx hr
        · rw [i2, h2.networks]
          exact hmain (fun x f => FeedNetwork e x.2.1 f n m) src _
        · rw [i3, h2.autnums]
          exact hmain (fun x f => FeedAutnum e x.2.1 f n m) src _
      · have hno : ∀ f, ¬ Updated e requested (name, kind, url) f := fun f h => hw ⟨f, h.2⟩
        rw [(processFeed_spec e name kind url t).2 fun f h => hw ⟨f, h⟩]
        simp only
        obtain ⟨i1, i2, i3, i4, i5⟩ := ih hnd (t := t) (ok := false)
        refine ⟨?_, fun n src m => ?_, fun n src m => ?_, i4, i5⟩
        · rw [i1]
          constructor
          · rintro ⟨h, -⟩; cases h
          · rintro ⟨-, h⟩
            exact absurd (h _ List.mem_cons_self hr) hw
        · rw [i2]; exact (hidle hno (α := Unit) (fun x f => FeedNetwork e x.2.1 f n m) src _).symm
        · rw [i3]; exact (hidle hno (α := Unit) (fun x f => FeedAutnum e x.2.1 f n m) src _).symm

end Loc
