import Verif.Lemmas.WhoisLines
/-
Lemmas about the data of the registries: what objects say.
-/
namespace Loc
open Spec Props

/-! ## Attributes -/

theorem lastAttr_cons {x : Bytes × Bytes} {attrs : List (Bytes × Bytes)} {key : String} {v : Bytes} :
    LastAttr (x :: attrs) key v ↔ LastAttr attrs key v ∨ (NoAttr attrs key ∧ x = (ascii key, v)) := by
  unfold LastAttr NoAttr
  constructor
  · rintro ⟨pre, post, he, hp⟩
    cases pre with
    | nil =>
      cases he
      exact .inr ⟨hp, rfl⟩
    | cons y pre =>
      cases he
      exact .inl ⟨pre, post, rfl, hp⟩
  · rintro (⟨pre, post, rfl, hp⟩ | ⟨h, rfl⟩)
    · exact ⟨x :: pre, post, rfl, hp⟩
    · exact ⟨[], attrs, rfl, h⟩

theorem lastAttr_nil {key : String} {v : Bytes} : ¬ LastAttr [] key v := by
  rintro ⟨pre, post, he, -⟩
  cases pre <;> cases he

theorem noAttr_cons {x : Bytes × Bytes} {attrs : List (Bytes × Bytes)} {key : String} : NoAttr (x :: attrs) key ↔ x.1 ≠ ascii key ∧ NoAttr attrs key :=
  List.forall_mem_cons

theorem noAttr_not_last {attrs : List (Bytes × Bytes)} {key : String} {v : Bytes} (h : NoAttr attrs key) : ¬ LastAttr attrs key v := by
  rintro ⟨pre, post, rfl, -⟩
  exact h _ (List.mem_append_right _ List.mem_cons_self) rfl

theorem lastAttr_unique {attrs : List (Bytes × Bytes)} {key : String} {v w : Bytes} (h1 : LastAttr attrs key v) (h2 : LastAttr attrs key w) : v = w := by
  induction attrs with
  | nil => exact absurd h1 lastAttr_nil
  | cons x attrs ih =>
    rw [lastAttr_cons] at h1 h2
    rcases h1 with h1 | ⟨g1, rfl⟩
    · rcases h2 with h2 | ⟨g2, -⟩
      · exact ih h1 h2
      · exact absurd h1 (noAttr_not_last g2)
    · rcases h2 with h2 | ⟨-, e⟩
      · exact absurd h2 (noAttr_not_last g1)
      · cases e
        rfl

theorem lastAttr_mem {attrs : List (Bytes × Bytes)} {key : String} {v : Bytes} (h : LastAttr attrs key v) : (ascii key, v) ∈ attrs := by
  obtain ⟨pre, post, rfl, -⟩ := h
  exact List.mem_append_right _ List.mem_cons_self

theorem noAttr_or_last (attrs : List (Bytes × Bytes)) (key : String) : NoAttr attrs key ∨ ∃ v, LastAttr attrs key v := by
  induction attrs with
  | nil => exact .inl fun x hx => by cases hx
  | cons x attrs ih =>
    rcases ih with ih | ⟨v, ih⟩
    · by_cases hx : x.1 = ascii key
      · exact .inr ⟨x.2, lastAttr_cons.mpr (.inr ⟨ih, by rw [← hx]⟩)⟩
      · exact .inl (noAttr_cons.mpr ⟨hx, ih⟩)
    · exact .inr ⟨v, lastAttr_cons.mpr (.inl ih)⟩

theorem ascii_keys : ascii "netname" = strNetname ∧ ascii "inetnum" = strInetnum ∧ ascii "inet6num" = strInet6num ∧
    ascii "country" = strCountryKey ∧ ascii "aut-num" = strAutnum ∧ ascii "org" = strOrg ∧ ascii "descr" = strDescr ∧
    ascii "organisation" = strOrganisation ∧ ascii "org-name" = strOrgName := by
  refine ⟨?_, ?_, ?_, ?_, ?_, ?_, ?_, ?_, ?_⟩ <;> decide

/-! ## Networks -/

/-- What one line of an object changes -/
structure InetStep (e : WhoisEnv) (d d' : InetObject) (x : Bytes × Bytes) : Prop where
  netname : x.1 = strNetname → ¬ Historic x.2
  inetnum : x.1 = strInetnum → ∃ l, inetNetworks x.2 = .ret (some l) ∧ d'.net = some l
  net : x.1 ≠ strInetnum → d'.net = d.net
  inet6num : x.1 = strInet6num → ∃ n, ipNetwork x.2 = some n ∧ d'.net6 = some [n]
  net6 : x.1 ≠ strInet6num → d'.net6 = d.net6
  countries : d'.countries = d.countries ++ if x.1 = strCountryKey then (knownCountry e x.2).toList else []

theorem inetLine_some {e : WhoisEnv} {d d' : InetObject} {line : Bytes} (h : inetLine e d line = .ret (some d')) : InetStep e d d' (splitLine line) := by
  unfold inetLine at h
  generalize splitLine line = x at h
  obtain ⟨key, val⟩ := x
  simp only at h
  have ne1 : strInetnum ≠ strNetname := by decide
  have ne2 : strInet6num ≠ strNetname := by decide
  have ne3 : strInet6num ≠ strInetnum := by decide
  have ne4 : strCountryKey ≠ strNetname := by decide
  have ne5 : strCountryKey ≠ strInetnum := by decide
  have ne6 : strCountryKey ≠ strInet6num := by decide
  by_cases h0 : key = strNetname ∧ historicName val = true
  · rw [if_pos h0] at h
    cases h
  · rw [if_neg h0] at h
    have hn : key = strNetname → ¬ Historic val := fun hk hh => h0 ⟨hk, historic_iff.mpr hh⟩
    by_cases h1 : key = strInetnum
    · rw [if_pos h1] at h
      subst h1
      cases hi : inetNetworks val with
      | exc x => rw [hi] at h; cases h
      | ret r =>
        rw [hi] at h
        cases r with
        | none => cases h
        | some l =>
          cases h
          exact ⟨hn, fun _ => ⟨l, hi, rfl⟩, fun h => absurd rfl h, fun h => absurd h.symm ne3, fun _ => rfl, by simp [ne5.symm]⟩
    · rw [if_neg h1] at h
      by_cases h2 : key = strInet6num
      · rw [if_pos h2] at h
        subst h2
        cases hi : ipNetwork val with
        | none => rw [hi] at h; cases h
        | some n =>
          rw [hi] at h
          cases h
          exact ⟨hn, fun h => absurd h h1, fun _ => rfl, fun _ => ⟨n, hi, rfl⟩, fun h => absurd rfl h, by simp [ne6.symm]⟩
      · rw [if_neg h2] at h
        by_cases h3 : key = strCountryKey
        · rw [if_pos h3] at h
          cases hi : knownCountry e val with
          | none =>
            rw [hi] at h
            cases h
            exact ⟨hn, fun h => absurd h h1, fun _ => rfl, fun h => absurd h h2, fun _ => rfl, by simp [h3, hi]⟩
          | some cc =>
            rw [hi] at h
            cases h
            exact ⟨hn, fun h => absurd h h1, fun _ => rfl, fun h => absurd h h2, fun _ => rfl, by simp [h3, hi]⟩
        · rw [if_neg h3] at h
          have same : ∀ {d1 : InetObject}, d1.net = d.net → d1.net6 = d.net6 → d1.countries = d.countries → InetStep e d d1 (key, val) := fun g1 g2 g3 =>
            ⟨hn, fun h => absurd h h1, fun _ => g1, fun h => absurd h h2, fun _ => g2, by simp [h3, g3]⟩
          split at h
          · cases h
            exact same rfl rfl rfl
          · split at h
            · split at h
              · cases h
                exact same rfl rfl rfl
              · cases h
                exact same rfl rfl rfl
            · cases h
              exact same rfl rfl rfl

theorem inetLine_none {e : WhoisEnv} {d : InetObject} {line : Bytes} (h : inetLine e d line = .ret none) :
    ((splitLine line).1 = strNetname ∧ Historic (splitLine line).2) ∨ ((splitLine line).1 = strInetnum ∧ inetNetworks (splitLine line).2 = .ret none) := by
  unfold inetLine at h
  generalize splitLine line = x at h
  obtain ⟨key, val⟩ := x
  simp only at h ⊢
  by_cases h0 : key = strNetname ∧ historicName val = true
  · exact .inl ⟨h0.1, historic_iff.mp h0.2⟩
  · rw [if_neg h0] at h
    by_cases h1 : key = strInetnum
    · rw [if_pos h1] at h
      cases hi : inetNetworks val with
      | exc x => rw [hi] at h; cases h
      | ret r =>
        rw [hi] at h
        cases r with
        | none => exact .inr ⟨h1, rfl⟩
        | some l => cases h
    · rw [if_neg h1] at h
      repeat' split at h
      all_goals cases h

theorem inetLine_exc {e : WhoisEnv} {d : InetObject} {line : Bytes} {x : Exc} (h : inetLine e d line = .exc x) :
    ((splitLine line).1 = strInetnum ∧ ∃ x, inetNetworks (splitLine line).2 = .exc x) ∨ ((splitLine line).1 = strInet6num ∧ ipNetwork (splitLine line).2 = none) := by
  unfold inetLine at h
  generalize splitLine line = x at h
  obtain ⟨key, val⟩ := x
  simp only at h ⊢
  by_cases h0 : key = strNetname ∧ historicName val = true
  · rw [if_pos h0] at h
    cases h
  · rw [if_neg h0] at h
    by_cases h1 : key = strInetnum
    · rw [if_pos h1] at h
      cases hi : inetNetworks val with
      | exc x => exact .inl ⟨h1, x, rfl⟩
      | ret r =>
        rw [hi] at h
        cases r <;> cases h
    · rw [if_neg h1] at h
      by_cases h2 : key = strInet6num
      · rw [if_pos h2] at h
        cases hi : ipNetwork val with
        | none => exact .inr ⟨h2, rfl⟩
        | some n => rw [hi] at h; cases h
      · rw [if_neg h2] at h
        repeat' split at h
        all_goals cases h

/-- The countries of an object -/
def countryList (e : WhoisEnv) (attrs : List (Bytes × Bytes)) : List CStr :=
  attrs.flatMap fun x => if x.1 = strCountryKey then (knownCountry e x.2).toList else []

/-- What all lines of an object change -/
structure InetSteps (e : WhoisEnv) (d d' : InetObject) (attrs : List (Bytes × Bytes)) : Prop where
  netname : ∀ v, (ascii "netname", v) ∈ attrs → ¬ Historic v
  inetnum : ∀ v, (ascii "inetnum", v) ∈ attrs → ∃ l, inetNetworks v = .ret (some l)
  inet6num : ∀ v, (ascii "inet6num", v) ∈ attrs → ∃ n, ipNetwork v = some n
  net : (NoAttr attrs "inetnum" ∧ d'.net = d.net) ∨ ∃ v l, LastAttr attrs "inetnum" v ∧ inetNetworks v = .ret (some l) ∧ d'.net = some l
  net6 : (NoAttr attrs "inet6num" ∧ d'.net6 = d.net6) ∨ ∃ v n, LastAttr attrs "inet6num" v ∧ ipNetwork v = some n ∧ d'.net6 = some [n]
  countries : d'.countries = d.countries ++ countryList e attrs

theorem inetLines_some {e : WhoisEnv} : ∀ {block : List Bytes} {d d' : InetObject}, inetLines e d block = .ret (some d') →
    InetSteps e d d' (block.map splitLine) := by
  intro block
  obtain ⟨k1, k2, k3, k4, -⟩ := ascii_keys
  induction block with
  | nil =>
    intro d d' h
    cases h
    exact ⟨fun v h => (by cases h), fun v h => (by cases h), fun v h => (by cases h), .inl ⟨fun x hx => (by cases hx), rfl⟩,
      .inl ⟨fun x hx => (by cases hx), rfl⟩, (List.append_nil _).symm⟩
  | cons line block ih =>
    intro d d' h
    rw [inetLines] at h
    cases hl : inetLine e d line with
    | exc x => rw [hl] at h; cases h
    | ret r =>
      rw [hl] at h
      cases r with
      | none => cases h
      | some d1 =>
        have s1 := inetLine_some hl
        have s2 := ih h
        rw [List.map_cons]
        refine ⟨?_, ?_, ?_, ?_, ?_, ?_⟩
        · intro v hv
          rcases List.mem_cons.mp hv with hv | hv
          · rw [← hv] at s1
            exact s1.netname k1
          · exact s2.netname v hv
        · intro v hv
          rcases List.mem_cons.mp hv with hv | hv
          · rw [← hv] at s1
            obtain ⟨l, hl, -⟩ := s1.inetnum k2
            exact ⟨l, hl⟩
          · exact s2.inetnum v hv
        · intro v hv
          rcases List.mem_cons.mp hv with hv | hv
          · rw [← hv] at s1
            obtain ⟨l, hl, -⟩ := s1.inet6num k3
            exact ⟨l, hl⟩
          · exact s2.inet6num v hv
        · rcases s2.net with ⟨g1, g2⟩ | ⟨v, l, g1, g2⟩
          · by_cases hk : (splitLine line).1 = strInetnum
            · obtain ⟨l, f1, f2⟩ := s1.inetnum hk
              refine .inr ⟨(splitLine line).2, l, lastAttr_cons.mpr (.inr ⟨g1, ?_⟩), f1, by rw [g2, f2]⟩
              rw [k2, ← hk]
            · refine .inl ⟨noAttr_cons.mpr ⟨by rw [k2]; exact hk, g1⟩, by rw [g2, s1.net hk]⟩
          · exact .inr ⟨v, l, lastAttr_cons.mpr (.inl g1), g2⟩
        · rcases s2.net6 with ⟨g1, g2⟩ | ⟨v, l, g1, g2⟩
          · by_cases hk : (splitLine line).1 = strInet6num
            · obtain ⟨l, f1, f2⟩ := s1.inet6num hk
              refine .inr ⟨(splitLine line).2, l, lastAttr_cons.mpr (.inr ⟨g1, ?_⟩), f1, by rw [g2, f2]⟩
              rw [k3, ← hk]
            · refine .inl ⟨noAttr_cons.mpr ⟨by rw [k3]; exact hk, g1⟩, by rw [g2, s1.net6 hk]⟩
          · exact .inr ⟨v, l, lastAttr_cons.mpr (.inl g1), g2⟩
        · rw [s2.countries, s1.countries, List.append_assoc]
          rfl

theorem inetLines_none {e : WhoisEnv} : ∀ {block : List Bytes} {d : InetObject}, inetLines e d block = .ret none →
    (∃ v, (ascii "netname", v) ∈ block.map splitLine ∧ Historic v) ∨ ∃ v, (ascii "inetnum", v) ∈ block.map splitLine ∧ inetNetworks v = .ret none := by
  intro block
  obtain ⟨k1, k2, -⟩ := ascii_keys
  induction block with
  | nil => intro d h; cases h
  | cons line block ih =>
    intro d h
    rw [inetLines] at h
    cases hl : inetLine e d line with
    | exc x => rw [hl] at h; cases h
    | ret r =>
      rw [hl] at h
      cases r with
      | none =>
        rw [List.map_cons]
        rcases inetLine_none hl with ⟨h1, h2⟩ | ⟨h1, h2⟩
        · exact .inl ⟨_, List.mem_cons.mpr (.inl (by rw [k1, ← h1])), h2⟩
        · exact .inr ⟨_, List.mem_cons.mpr (.inl (by rw [k2, ← h1])), h2⟩
      | some d1 =>
        rcases ih h with ⟨v, h1, h2⟩ | ⟨v, h1, h2⟩
        · exact .inl ⟨v, List.mem_cons_of_mem _ h1, h2⟩
        · exact .inr ⟨v, List.mem_cons_of_mem _ h1, h2⟩

theorem inetLines_exc {e : WhoisEnv} : ∀ {block : List Bytes} {d : InetObject} {x : Exc}, inetLines e d block = .exc x →
    (∃ v, (ascii "inetnum", v) ∈ block.map splitLine ∧ ∃ x, inetNetworks v = .exc x) ∨ ∃ v, (ascii "inet6num", v) ∈ block.map splitLine ∧ ipNetwork v = none := by
  intro block
  obtain ⟨k1, k2, k3, -⟩ := ascii_keys
  induction block with
  | nil => intro d x h; cases h
  | cons line block ih =>
    intro d x h
    rw [inetLines] at h
    cases hl : inetLine e d line with
    | exc x =>
      rw [List.map_cons]
      rcases inetLine_exc hl with ⟨h1, h2⟩ | ⟨h1, h2⟩
      · exact .inl ⟨_, List.mem_cons.mpr (.inl (by rw [k2, ← h1])), h2⟩
      · exact .inr ⟨_, List.mem_cons.mpr (.inl (by rw [k3, ← h1])), h2⟩
    | ret r =>
      rw [hl] at h
      cases r with
      | none => cases h
      | some d1 =>
        rcases ih h with ⟨v, h1, h2⟩ | ⟨v, h1, h2⟩
        · exact .inl ⟨v, List.mem_cons_of_mem _ h1, h2⟩
        · exact .inr ⟨v, List.mem_cons_of_mem _ h1, h2⟩

theorem firstCountry_iff {e : WhoisEnv} {attrs : List (Bytes × Bytes)} {c : Option CStr} : FirstCountry e attrs c ↔ (countryList e attrs).head? = c := by
  have k4 := ascii_keys.2.2.2.1
  induction attrs with
  | nil =>
    constructor
    · rintro (⟨pre, v, post, cc, he, -⟩ | ⟨-, rfl⟩)
      · cases pre <;> cases he
      · rfl
    · rintro rfl
      exact .inr ⟨fun x hx => (by cases hx), rfl⟩
  | cons x attrs ih =>
    have hcons : countryList e (x :: attrs) = (if x.1 = strCountryKey then (knownCountry e x.2).toList else []) ++ countryList e attrs := rfl
    by_cases hx : ∃ cc, x.1 = ascii "country" ∧ KnownCountry e x.2 cc
    · obtain ⟨cc, h1, h2⟩ := hx
      have hh : (countryList e (x :: attrs)).head? = some cc := by
        rw [hcons, if_pos (by rw [h1, k4]), knownCountry_iff.mpr h2]
        rfl
      rw [hh]
      constructor
      · rintro (⟨pre, v, post, cc', he, g1, g2, g3⟩ | ⟨h, -⟩)
        · cases pre with
          | nil =>
            cases he
            rw [g2, ← knownCountry_iff.mpr g1, ← knownCountry_iff.mpr h2]
          | cons y pre =>
            cases he
            exact absurd h2 (g3 x List.mem_cons_self h1 cc)
        · exact absurd h2 (h x List.mem_cons_self h1 cc)
      · rintro rfl
        exact .inl ⟨[], x.2, attrs, cc, by rw [← h1]; rfl, h2, rfl, fun y hy => by cases hy⟩
    · have hno : ∀ cc, x.1 = ascii "country" → ¬ KnownCountry e x.2 cc := fun cc h1 h2 => hx ⟨cc, h1, h2⟩
      have hh : countryList e (x :: attrs) = countryList e attrs := by
        rw [hcons]
        by_cases h1 : x.1 = strCountryKey
        · rw [if_pos h1]
          cases hk : knownCountry e x.2 with
          | none => rfl
          | some cc => exact absurd (knownCountry_iff.mp hk) (hno cc (by rw [h1, k4]))
        · rw [if_neg h1]
          rfl
      rw [hh]
      refine Iff.trans ?_ ih
      constructor
      · rintro (⟨pre, v, post, cc', he, g1, g2, g3⟩ | ⟨h, h'⟩)
        · cases pre with
          | nil =>
            cases he
            exact absurd g1 (hno cc' rfl)
          | cons y pre =>
            cases he
            exact .inl ⟨pre, v, post, cc', rfl, g1, g2, fun z hz => g3 z (List.mem_cons_of_mem _ hz)⟩
        · exact .inr ⟨fun z hz => h z (List.mem_cons_of_mem _ hz), h'⟩
      · rintro (⟨pre, v, post, cc', rfl, g1, g2, g3⟩ | ⟨h, h'⟩)
        · refine .inl ⟨x :: pre, v, post, cc', rfl, g1, g2, fun z hz => ?_⟩
          rcases List.mem_cons.mp hz with rfl | hz
          · exact fun h1 cc' => hno cc' h1
          · exact g3 z hz
        · refine .inr ⟨fun z hz => ?_, h'⟩
          rcases List.mem_cons.mp hz with rfl | hz
          · exact fun h1 cc' => hno cc' h1
          · exact h z hz

/-! ## Ranges -/

theorem inetNetworks_some {v : Bytes} {l : List Network} (h : inetNetworks v = .ret (some l)) : ∃ a b, NamesRange v a b ∧ summarizeRange a b = .ret l := by
  unfold inetNetworks at h
  cases hr : inetRange v with
  | exc x => rw [hr] at h; cases h
  | ret r =>
    rw [hr] at h
    cases r with
    | none => cases h
    | some ab =>
      obtain ⟨a, b⟩ := ab
      simp only at h
      cases hs : summarizeRange a b with
      | exc x => rw [hs] at h; cases h
      | ret l' =>
        rw [hs] at h
        cases h
        exact ⟨a, b, inetRange_iff.mp hr, hs⟩

theorem inetNetworks_none {v : Bytes} (h : inetNetworks v = .ret none) (a b : Addr) : ¬ NamesRange v a b := by
  unfold inetNetworks at h
  intro hr
  rw [inetRange_iff.mpr hr] at h
  simp only at h
  cases hs : summarizeRange a b <;> rw [hs] at h <;> cases h

theorem summarize_valid {a b : Addr} {l : List Network} (h : summarizeRange a b = .ret l) : value a ≤ value b ∧ (IsV4 a ↔ IsV4 b) := by
  constructor
  · rcases Nat.lt_or_ge (value b) (value a) with hlt | hge
    · obtain ⟨x, hx⟩ := summarizeRange_exc (a := a) (b := b) (.inr hlt)
      rw [hx] at h
      cases h
    · exact hge
  · refine Classical.byContradiction fun hn => ?_
    obtain ⟨x, hx⟩ := summarizeRange_exc (a := a) (b := b) (.inl hn)
    rw [hx] at h
    cases h

theorem inetNetworks_exc {v : Bytes} {x : Exc} (h : inetNetworks v = .exc x)
    (hsep : ∀ a b, NamesRange v a b → value a ≤ value b → (IsV4 a ↔ IsV4 b) → OneFamily a b) :
    (∃ a b, NamesRange v a b ∧ (value b < value a ∨ ¬ (IsV4 a ↔ IsV4 b))) ∨
      (45 ∉ v ∧ ∃ t, EndTrimmed v t ∧ 47 ∉ t ∧ (t.count 46 = 1 ∨ t.count 46 = 2)) := by
  unfold inetNetworks at h
  cases hr : inetRange v with
  | exc x => exact .inr (inetRange_exc hr)
  | ret r =>
    rw [hr] at h
    cases r with
    | none => cases h
    | some ab =>
      obtain ⟨a, b⟩ := ab
      simp only at h
      have hn := inetRange_iff.mp hr
      left
      refine ⟨a, b, hn, Classical.byContradiction fun hc => ?_⟩
      rw [not_or, not_not] at hc
      obtain ⟨ns, hs, -⟩ := summarizeRange_ret (hsep a b hn (by omega) hc.2) (by omega)
      rw [hs] at h
      cases h

/-! ## Storing -/

theorem store_mem (e : WhoisEnv) (source : CStr) (d : InetObject) : ∀ (l : List Network) (t : WhoisTables) (n : Network) (c : Option CStr),
    ((n, c) ∈ (l.foldl (storeNetwork e source d) t).rirdata ↔
      ((n ∈ l ∧ checkNetwork e n = true) ∧ c = d.countries.head?) ∨ (¬ (n ∈ l ∧ checkNetwork e n = true) ∧ (n, c) ∈ t.rirdata)) := by
  intro l
  induction l with
  | nil =>
    intro t n c
    simp
  | cons m l ih =>
    intro t n c
    rw [List.foldl_cons, ih]
    have hstep : (n, c) ∈ (storeNetwork e source d t m).rirdata ↔
        ((n = m ∧ checkNetwork e n = true) ∧ c = d.countries.head?) ∨ (¬ (n = m ∧ checkNetwork e n = true) ∧ (n, c) ∈ t.rirdata) := by
      unfold storeNetwork
      cases hc : checkNetwork e m
      · simp only [Bool.not_false, if_true]
        have : ¬ (n = m ∧ checkNetwork e n = true) := by
          rintro ⟨rfl, h⟩
          rw [hc] at h
          cases h
        simp [this]
      · simp only [Bool.not_true, Bool.false_eq_true, if_false]
        have hr : ∀ X : WhoisTables, X.rirdata = putOver t.rirdata m d.countries.head? (fun _ => d.countries.head?) → ((n, c) ∈ X.rirdata ↔
            ((n = m ∧ checkNetwork e n = true) ∧ c = d.countries.head?) ∨ (¬ (n = m ∧ checkNetwork e n = true) ∧ (n, c) ∈ t.rirdata)) := by
          intro X hX
          rw [hX, mem_putConst]
          have : (n = m ∧ checkNetwork e n = true) ↔ n = m := by
            constructor
            · exact fun h => h.1
            · rintro rfl
              exact ⟨rfl, hc⟩
          rw [this]
        refine hr _ ?_
        split
        · rfl
        · split
          · rfl
          · split
            · rfl
            · split <;> rfl
    rw [hstep]
    by_cases h1 : n ∈ l ∧ checkNetwork e n = true
    · have : n ∈ m :: l ∧ checkNetwork e n = true := ⟨List.mem_cons_of_mem _ h1.1, h1.2⟩
      simp [h1, this]
    · by_cases h2 : n = m ∧ checkNetwork e n = true
      · have : n ∈ m :: l ∧ checkNetwork e n = true := ⟨List.mem_cons.mpr (.inl h2.1), h2.2⟩
        constructor
        · rintro (⟨h, -⟩ | ⟨-, ⟨-, h⟩ | ⟨h, -⟩⟩)
          · exact absurd h h1
          · exact .inl ⟨this, h⟩
          · exact absurd h2 h
        · rintro (⟨-, h⟩ | ⟨h, -⟩)
          · exact .inr ⟨h1, .inl ⟨h2, h⟩⟩
          · exact absurd this h
      · have : ¬ (n ∈ m :: l ∧ checkNetwork e n = true) := by
          rintro ⟨h, hc⟩
          rcases List.mem_cons.mp h with h | h
          · exact h2 ⟨h, hc⟩
          · exact h1 ⟨h, hc⟩
        simp only [h1, h2, this, false_and, not_false_eq_true, true_and, false_or]

theorem store_frame (e : WhoisEnv) (source : CStr) (d : InetObject) : ∀ (l : List Network) (t : WhoisTables),
    let t' := l.foldl (storeNetwork e source d) t
    t'.networks = t.networks ∧ t'.autnums = t.autnums ∧ t'.tmpAutnums = t.tmpAutnums ∧ t'.tmpOrgs = t.tmpOrgs ∧
      ((t.rirdata.map (·.1)).Nodup → (t'.rirdata.map (·.1)).Nodup) := by
  intro l
  induction l with
  | nil => exact fun t => ⟨rfl, rfl, rfl, rfl, id⟩
  | cons m l ih =>
    intro t
    simp only [List.foldl_cons]
    obtain ⟨h1, h2, h3, h4, h5⟩ := ih (storeNetwork e source d t m)
    have hk : (t.rirdata.map (·.1)).Nodup → ((putOver t.rirdata m d.countries.head? fun _ => d.countries.head?).map (·.1)).Nodup :=
      fun h => keys_putOver h
    have hs : (storeNetwork e source d t m).networks = t.networks ∧ (storeNetwork e source d t m).autnums = t.autnums ∧
        (storeNetwork e source d t m).tmpAutnums = t.tmpAutnums ∧ (storeNetwork e source d t m).tmpOrgs = t.tmpOrgs ∧
        ((t.rirdata.map (·.1)).Nodup → ((storeNetwork e source d t m).rirdata.map (·.1)).Nodup) := by
      unfold storeNetwork
      split
      · exact ⟨rfl, rfl, rfl, rfl, id⟩
      · simp only
        split
        · exact ⟨rfl, rfl, rfl, rfl, hk⟩
        · split
          · exact ⟨rfl, rfl, rfl, rfl, hk⟩
          · split
            · exact ⟨rfl, rfl, rfl, rfl, hk⟩
            · split <;> exact ⟨rfl, rfl, rfl, rfl, hk⟩
    exact ⟨by rw [h1, hs.1], by rw [h2, hs.2.1], by rw [h3, hs.2.2.1], by rw [h4, hs.2.2.2.1], fun h => h5 (hs.2.2.2.2 h)⟩

end Loc
