import Verif.Lemmas.WhoisText
/-
Lemmas about the data of the registries: what lines of statistics and objects say.
-/
namespace Loc
open Spec Props

/-! ## Tables -/

theorem mem_putOver {κ β : Type} [DecidableEq κ] {t : List (κ × β)} {k k' : κ} {v v' : β} {set : β → β} :
    (k', v') ∈ putOver t k v set ↔ (k' = k ∧ ((∃ old, (k, old) ∈ t ∧ v' = set old) ∨ (k ∉ t.map (·.1) ∧ v' = v))) ∨ (k' ≠ k ∧ (k', v') ∈ t) := by
  unfold putOver
  by_cases hk : k ∈ t.map (·.1)
  · rw [if_pos (any_key.mpr hk), List.mem_map]
    constructor
    · rintro ⟨⟨y1, y2⟩, hy, he⟩
      by_cases hyk : y1 = k
      · rw [if_pos hyk] at he
        cases he
        subst hyk
        exact .inl ⟨rfl, .inl ⟨y2, hy, rfl⟩⟩
      · rw [if_neg hyk] at he
        cases he
        exact .inr ⟨hyk, hy⟩
    · rintro (⟨rfl, ⟨old, ho, rfl⟩ | ⟨h, -⟩⟩ | ⟨h1, h2⟩)
      · exact ⟨(k', old), ho, if_pos rfl⟩
      · exact absurd hk h
      · exact ⟨(k', v'), h2, if_neg h1⟩
  · rw [if_neg (fun h => hk (any_key.mp h)), List.mem_append, List.mem_singleton, Prod.mk.injEq]
    have hno : ∀ x, (k, x) ∉ t := fun x hx => hk (List.mem_map.mpr ⟨(k, x), hx, rfl⟩)
    constructor
    · rintro (h | ⟨rfl, rfl⟩)
      · refine .inr ⟨?_, h⟩
        rintro rfl
        exact hno _ h
      · exact .inl ⟨rfl, .inr ⟨hk, rfl⟩⟩
    · rintro (⟨rfl, ⟨old, ho, rfl⟩ | ⟨-, rfl⟩⟩ | ⟨-, h⟩)
      · exact absurd ho (hno _)
      · exact .inr ⟨rfl, rfl⟩
      · exact .inl h

theorem mem_putConst {κ β : Type} [DecidableEq κ] {t : List (κ × β)} {k k' : κ} {v v' : β} :
    (k', v') ∈ putOver t k v (fun _ => v) ↔ (k' = k ∧ v' = v) ∨ (k' ≠ k ∧ (k', v') ∈ t) := by
  rw [mem_putOver]
  constructor
  · rintro (⟨h, ⟨-, -, h'⟩ | ⟨-, h'⟩⟩ | h)
    · exact .inl ⟨h, h'⟩
    · exact .inl ⟨h, h'⟩
    · exact .inr h
  · rintro (⟨h, h'⟩ | h)
    · by_cases hk : k ∈ t.map (·.1)
      · obtain ⟨⟨y1, y2⟩, hy, rfl⟩ := List.mem_map.mp hk
        exact .inl ⟨h, .inl ⟨y2, hy, h'⟩⟩
      · exact .inl ⟨h, .inr ⟨hk, h'⟩⟩
    · exact .inr h

theorem mem_putNew {κ β : Type} [DecidableEq κ] {t : List (κ × β)} {k k' : κ} {v v' : β} :
    (k', v') ∈ putNew t k v ↔ (k', v') ∈ t ∨ (k ∉ t.map (·.1) ∧ k' = k ∧ v' = v) := by
  by_cases hk : k ∈ t.map (·.1)
  · rw [putNew_pos hk]
    exact ⟨.inl, fun h => h.elim id fun h => absurd hk h.1⟩
  · rw [putNew_neg hk, List.mem_append, List.mem_singleton, Prod.mk.injEq]
    exact ⟨fun h => h.elim .inl fun h => .inr ⟨hk, h⟩, fun h => h.elim .inl fun h => .inr h.2⟩

theorem keys_putOver {κ β : Type} [DecidableEq κ] {t : List (κ × β)} {k : κ} {v : β} {set : β → β} (h : (t.map (·.1)).Nodup) :
    ((putOver t k v set).map (·.1)).Nodup := by
  unfold putOver
  by_cases hk : k ∈ t.map (·.1)
  · rw [if_pos (any_key.mpr hk), List.map_map]
    have : t.map ((·.1) ∘ fun x => if x.1 = k then (x.1, set x.2) else x) = t.map (·.1) := by
      refine List.map_congr_left fun x _ => ?_
      simp only [Function.comp]
      split <;> rfl
    rw [this]
    exact h
  · rw [if_neg (fun h => hk (any_key.mp h)), List.map_append, List.nodup_append]
    refine ⟨h, by simp, fun a ha b hb => ?_⟩
    rw [List.map_cons, List.map_nil, List.mem_singleton] at hb
    rintro rfl
    rw [hb] at ha
    exact hk ha

theorem keys_putNew {κ β : Type} [DecidableEq κ] {t : List (κ × β)} {k : κ} {v : β} (h : (t.map (·.1)).Nodup) :
    ((putNew t k v).map (·.1)).Nodup := by
  by_cases hk : k ∈ t.map (·.1)
  · rw [putNew_pos hk]
    exact h
  · rw [putNew_neg hk, List.map_append, List.nodup_append]
    refine ⟨h, by simp, fun a ha b hb => ?_⟩
    rw [List.map_cons, List.map_nil, List.mem_singleton] at hb
    rintro rfl
    rw [hb] at ha
    exact hk ha

/-! ## Statistics -/

/-- What is read from a line of statistics -/
def statAbout (e : WhoisEnv) (line : Bytes) : Option (Bytes × Bytes × Bytes × Int) :=
  if line.head? = some 50 then none
  else if line.head? = some 35 then none
  else match splitStat line with
  | none => none
  | some (_, cc, type, rest) =>
  if type = strAsn then none
  else if ¬ (type = strIpv6 ∨ type = strIpv4) then none
  else if cc.isEmpty || cc = [42] then none
  else if !e.countries.contains cc then none
  else match statFields rest with
  | none => none
  | some (address, p, status) =>
  if ¬ (status = strAssigned ∨ status = strAllocated) then none
  else match pyInt p with
  | none => none
  | some i => some (cc, type, address, i)

theorem parseStat_eq (e : WhoisEnv) (source : CStr) (t : WhoisTables) (line : Bytes) : parseStat e source t line =
    match statAbout e line with
    | none => .ret t
    | some (cc, type, address, i) =>
      match statPrefix type i with
      | .exc x => .exc x
      | .ret p =>
        match ipNetworkOf address p with
        | none => .ret t
        | some n =>
          if !checkNetwork e n then .ret t
          else .ret { t with networks := putOver t.networks n (some cc, source) fun old => (some cc, old.2) } := by
  unfold parseStat statAbout
  split
  · rfl
  split
  · rfl
  cases splitStat line with
  | none => rfl
  | some x =>
    obtain ⟨r, cc, type, rest⟩ := x
    simp only
    split
    · rfl
    split
    · rfl
    split
    · rfl
    split
    · rfl
    cases statFields rest with
    | none => rfl
    | some y =>
      obtain ⟨address, p, status⟩ := y
      simp only
      split
      · rfl
      cases pyInt p with
      | none => rfl
      | some i => rfl

theorem statAbout_iff {e : WhoisEnv} {line cc type address : Bytes} {i : Int} : statAbout e line = some (cc, type, address, i) ↔
    StatAbout e line cc type address i := by
  unfold statAbout StatAbout
  constructor
  · intro h
    split at h
    · cases h
    rename_i h50
    split at h
    · cases h
    rename_i h35
    cases hs : splitStat line with
    | none => rw [hs] at h; cases h
    | some x =>
      obtain ⟨r, cc', type', rest⟩ := x
      rw [hs] at h
      simp only at h
      split at h
      · cases h
      split at h
      · cases h
      rename_i htype
      split at h
      · cases h
      rename_i hcc
      split at h
      · cases h
      rename_i hcountry
      cases hf : statFields rest with
      | none => rw [hf] at h; cases h
      | some y =>
        obtain ⟨address', p, status⟩ := y
        rw [hf] at h
        simp only at h
        split at h
        · cases h
        rename_i hstatus
        cases hp : pyInt p with
        | none => rw [hp] at h; cases h
        | some j =>
          rw [hp] at h
          simp only [Option.some.injEq, Prod.mk.injEq] at h
          obtain ⟨rfl, rfl, rfl, rfl⟩ := h
          rw [Bool.or_eq_true, not_or] at hcc
          refine ⟨h50, h35, ?_, ?_, ?_, ?_, p, status, statText_iff.mpr ⟨r, rest, hs, hf⟩, Classical.byContradiction hstatus, pyInt_iff.mp hp⟩
          · intro he
            rw [he] at hcc
            exact hcc.1 rfl
          · intro he
            exact hcc.2 (decide_eq_true he)
          · simpa using hcountry
          · rcases Classical.byContradiction htype with h | h
            · exact .inr h
            · exact .inl h
  · rintro ⟨h1, h2, h3, h4, h5, h6, number, status, h7, h8, h9⟩
    obtain ⟨r, rest, hs, hf⟩ := statText_iff.mp h7
    rw [if_neg h1, if_neg h2, hs]
    simp only
    have g1 : type ≠ strAsn := by rcases h6 with rfl | rfl <;> decide
    have g2 : type = strIpv6 ∨ type = strIpv4 := h6.symm
    have g3 : (cc.isEmpty || decide (cc = [42])) = false := by
      rw [Bool.or_eq_false_iff]
      refine ⟨?_, decide_eq_false h4⟩
      cases cc with
      | nil => exact absurd rfl h3
      | cons => rfl
    have g4 : e.countries.contains cc = true := by simpa using h5
    rw [if_neg g1, if_neg (not_not_intro g2), g3, g4, hf]
    simp only [Bool.false_eq_true, if_false, Bool.not_true]
    have g5 : status = strAssigned ∨ status = strAllocated := h8
    rw [if_neg (not_not_intro g5), pyInt_iff.mpr h9]

theorem ipNetworkOf_iff {address : Bytes} {p : Int} {n : Network} : ipNetworkOf address p = some n ↔
    ∃ a m q, Denotes address a ∧ LargestPrefix address m ∧ q ≤ m ∧ p = (q : Nat) ∧ newNetwork a q = .ok n := by
  unfold ipNetworkOf
  constructor
  · intro h
    cases hp : parseText address with
    | none => rw [hp] at h; cases h
    | some x =>
      obtain ⟨a, f⟩ := x
      rw [hp] at h
      simp only at h
      split at h
      · rename_i hle
        refine ⟨a, familyBitLength f, p.toNat, denotes_iff.mpr ⟨f, hp⟩, (parseText_largest hp _).mpr rfl, by omega, by omega, toOption_iff.mp h⟩
      · cases h
  · rintro ⟨a, m, q, h1, h2, h3, rfl, h4⟩
    obtain ⟨f, hp⟩ := denotes_iff.mp h1
    have := (parseText_largest hp m).mp h2
    subst this
    rw [hp]
    simp only
    rw [if_pos ⟨by omega, by omega⟩, Int.toNat_natCast]
    exact toOption_iff.mpr h4

theorem log2_iff {i k : Nat} : (i ≠ 0 ∧ i.log2 = k) ↔ 2 ^ k ≤ i ∧ i < 2 ^ (k + 1) := by
  constructor
  · rintro ⟨h, rfl⟩
    exact ⟨Nat.log2_self_le h, Nat.lt_log2_self⟩
  · rintro ⟨h1, h2⟩
    have hi : i ≠ 0 := by have := Nat.two_pow_pos k; omega
    refine ⟨hi, ?_⟩
    have e1 := (Nat.le_log2 hi).mpr h1
    have e2 : ¬ k + 1 ≤ i.log2 := fun h => by
      have := (Nat.le_log2 hi).mp h
      omega
    omega

/-- The row that a line is about, or the exception -/
theorem parseStat_cases (e : WhoisEnv) (source : CStr) (t : WhoisTables) (line : Bytes) :
    (parseStat e source t line = .ret t ∧ ∀ n cc, ¬ StatRow e line n cc) ∨
    (∃ n cc, (∀ n' cc', StatRow e line n' cc' ↔ n' = n ∧ cc' = cc) ∧
      parseStat e source t line = .ret { t with networks := putOver t.networks n (some cc, source) fun old => (some cc, old.2) }) ∨
    (∃ x, parseStat e source t line = .exc x ∧ FaultyStat e line) := by
  rw [parseStat_eq]
  cases hs : statAbout e line with
  | none =>
    refine .inl ⟨rfl, ?_⟩
    rintro n cc ⟨type, address, i, _, _, _, h, -⟩
    rw [statAbout_iff.mpr h] at hs
    cases hs
  | some x =>
    obtain ⟨cc, type, address, i⟩ := x
    simp only
    have hab := statAbout_iff.mp hs
    have huniq : ∀ {cc' type' address' i'}, StatAbout e line cc' type' address' i' → cc' = cc ∧ type' = type ∧ address' = address ∧ i' = i := by
      intro cc' type' address' i' h
      rw [statAbout_iff.mpr h] at hs
      simp only [Option.some.injEq, Prod.mk.injEq] at hs
      exact hs
    by_cases hbad : type = strIpv4 ∧ i ≤ 0
    · have : statPrefix type i = .exc .value := by unfold statPrefix; rw [if_pos hbad.1, if_pos hbad.2]
      rw [this]
      obtain ⟨rfl, hi⟩ := hbad
      exact .inr (.inr ⟨_, rfl, cc, address, i, hab, hi⟩)
    · have hpre : ∃ p, statPrefix type i = .ret p ∧ ∀ q : Nat, p = q ↔
          (if type = ascii "ipv4" then ∃ k, q + k = 32 ∧ (2 : Int) ^ k ≤ i ∧ i < (2 : Int) ^ (k + 1) else i = q) := by
        unfold statPrefix
        by_cases h4 : type = strIpv4
        · rw [if_pos h4, if_neg fun h => hbad ⟨h4, h⟩]
          refine ⟨_, rfl, fun q => ?_⟩
          rw [if_pos (show type = ascii "ipv4" from h4)]
          have hi : ¬ i ≤ 0 := fun h => hbad ⟨h4, h⟩
          obtain ⟨j, rfl⟩ := Int.eq_ofNat_of_zero_le (show 0 ≤ i by omega)
          rw [Int.toNat_natCast]
          constructor
          · intro h
            obtain ⟨g1, g2⟩ := log2_iff.mp (⟨by omega, rfl⟩ : j ≠ 0 ∧ j.log2 = j.log2)
            exact ⟨j.log2, by omega, by exact_mod_cast g1, by exact_mod_cast g2⟩
          · rintro ⟨k, hk, g1, g2⟩
            have := (log2_iff (i := j) (k := k)).mpr ⟨by exact_mod_cast g1, by exact_mod_cast g2⟩
            omega
        · rw [if_neg h4]
          refine ⟨_, rfl, fun q => ?_⟩
          rw [if_neg (show ¬ type = ascii "ipv4" from h4)]
      obtain ⟨p, hp, hpq⟩ := hpre
      rw [hp]
      simp only
      have hrow : ∀ n' cc', StatRow e line n' cc' ↔ cc' = cc ∧ ipNetworkOf address p = some n' ∧ Acceptable e n' := by
        intro n' cc'
        constructor
        · rintro ⟨type', address', i', a, m, q, h1, h2, h3, h4, h5, h6, h7⟩
          obtain ⟨rfl, rfl, rfl, rfl⟩ := huniq h1
          exact ⟨rfl, ipNetworkOf_iff.mpr ⟨a, m, q, h2, h3, h4, (hpq q).mpr h5, h6⟩, h7⟩
        · rintro ⟨rfl, h1, h2⟩
          obtain ⟨a, m, q, g1, g2, g3, g4, g5⟩ := ipNetworkOf_iff.mp h1
          exact ⟨type, address, i, a, m, q, hab, g1, g2, g3, (hpq q).mp g4, g5, h2⟩
      cases hn : ipNetworkOf address p with
      | none =>
        refine .inl ⟨rfl, fun n' cc' h => ?_⟩
        have := ((hrow n' cc').mp h).2.1
        rw [hn] at this
        cases this
      | some n =>
        have hbare : BareNetwork n := by
          obtain ⟨a, m, q, -, -, -, -, g5⟩ := ipNetworkOf_iff.mp hn
          exact ⟨a, q, g5⟩
        simp only
        cases hc : checkNetwork e n
        · refine .inl ⟨by simp, fun n' cc' h => ?_⟩
          obtain ⟨-, h1, h2⟩ := (hrow n' cc').mp h
          rw [hn] at h1
          cases h1
          rw [(checkNetwork_iff hbare).mpr h2] at hc
          cases hc
        · refine .inr (.inl ⟨n, cc, fun n' cc' => ?_, by simp⟩)
          rw [hrow, hn]
          constructor
          · rintro ⟨h1, h2, -⟩
            cases h2
            exact ⟨rfl, h1⟩
          · rintro ⟨rfl, rfl⟩
            exact ⟨rfl, rfl, (checkNetwork_iff hbare).mp hc⟩

/-! ## The list of ARIN -/

theorem checkAsn_iff {k : Nat} : checkAsn k = true ↔ (1 ≤ k ∧ k ≤ 23455) ∨ (23457 ≤ k ∧ k ≤ 64495) ∨ (131072 ≤ k ∧ k ≤ 4199999999) := by
  unfold checkAsn
  simp only [List.any_cons, List.any_nil, Bool.or_false, Bool.or_eq_true, Bool.and_eq_true, decide_eq_true_eq]
  omega

theorem checkAsn_pos {i : Int} (h : checkAsn i = true) : i = (i.toNat : Int) := by
  unfold checkAsn at h
  simp only [List.any_cons, List.any_nil, Bool.or_false, Bool.or_eq_true, Bool.and_eq_true, decide_eq_true_eq] at h
  omega

/-- Names of the numbers from `first` on -/
theorem arinNumbers_mem (name : CStr) : ∀ (count : Nat) (t : WhoisTables) (first : Int) (k : Nat) (v : CStr),
    (∃ s, (k, v, s) ∈ (arinNumbers name t first count).autnums) ↔ (∃ s, (k, v, s) ∈ t.autnums) ∨
      ((∀ v', ¬ ∃ s, (k, v', s) ∈ t.autnums) ∧ v = name ∧ first ≤ k ∧ k < first + count ∧ checkAsn k = true) := by
  intro count
  induction count with
  | zero =>
    intro t first k v
    show (∃ s, (k, v, s) ∈ t.autnums) ↔ _
    exact ⟨.inl, fun h => h.elim id fun h => by have := h.2.2.1; have := h.2.2.2.1; omega⟩
  | succ count ih =>
    intro t first k v
    rw [arinNumbers, ih]
    have hstep : ∀ v, (∃ s, (k, v, s) ∈ (if checkAsn first then { t with autnums := putNew t.autnums first.toNat (name, strArin) } else t).autnums) ↔
        (∃ s, (k, v, s) ∈ t.autnums) ∨ ((∀ v', ¬ ∃ s, (k, v', s) ∈ t.autnums) ∧ v = name ∧ first = k ∧ checkAsn k = true) := by
      intro v
      by_cases hc : checkAsn first = true
      · rw [if_pos hc]
        have hp := checkAsn_pos hc
        simp only [mem_putNew, Prod.mk.injEq]
        constructor
        · rintro ⟨s, h | ⟨h1, h2, h3, h4⟩⟩
          · exact .inl ⟨s, h⟩
          · refine .inr ⟨?_, h3, by omega, by rw [h2, ← hp]; exact hc⟩
            rintro v' ⟨s', hs'⟩
            exact h1 (List.mem_map.mpr ⟨(k, v', s'), hs', h2⟩)
        · rintro (⟨s, h⟩ | ⟨h1, h2, h3, -⟩)
          · exact ⟨s, .inl h⟩
          · refine ⟨strArin, .inr ⟨?_, by omega, h2, rfl⟩⟩
            intro hm
            obtain ⟨⟨y1, y2, y3⟩, hy, he⟩ := List.mem_map.mp hm
            simp only at he
            have : y1 = k := by omega
            subst this
            exact h1 y2 ⟨y3, hy⟩
      · rw [if_neg hc]
        constructor
        · exact .inl
        · rintro (h | ⟨-, -, h1, h2⟩)
          · exact h
          · rw [h1] at hc
            exact absurd h2 hc
    simp only [hstep]
    constructor
    · rintro ((h | ⟨h1, h2, h3, h4⟩) | ⟨h1, h2, h3, h4, h5⟩)
      · exact .inl h
      · exact .inr ⟨h1, h2, by omega, by omega, h4⟩
      · refine .inr ⟨fun v' hv' => h1 v' (.inl hv'), h2, by omega, by omega, h5⟩
    · rintro (h | ⟨h1, h2, h3, h4, h5⟩)
      · exact .inl (.inl h)
      · by_cases he : first = k
        · exact .inl (.inr ⟨h1, h2, he, h5⟩)
        · refine .inr ⟨?_, h2, by omega, by omega, h5⟩
          rintro v' (hv' | hv')
          · exact h1 v' hv'
          · exact he hv'.2.2.1

theorem arinNumbers_frame (name : CStr) : ∀ (count : Nat) (t : WhoisTables) (first : Int),
    (arinNumbers name t first count).networks = t.networks ∧ (arinNumbers name t first count).rirdata = t.rirdata ∧
    (arinNumbers name t first count).tmpAutnums = t.tmpAutnums ∧ (arinNumbers name t first count).tmpOrgs = t.tmpOrgs ∧
    ((t.autnums.map (·.1)).Nodup → ((arinNumbers name t first count).autnums.map (·.1)).Nodup) := by
  intro count
  induction count with
  | zero => exact fun t first => ⟨rfl, rfl, rfl, rfl, id⟩
  | succ count ih =>
    intro t first
    rw [arinNumbers]
    obtain ⟨h1, h2, h3, h4, h5⟩ := ih (if checkAsn first then { t with autnums := putNew t.autnums first.toNat (name, strArin) } else t) (first + 1)
    rw [h1, h2, h3, h4]
    by_cases hc : checkAsn first = true
    · simp only [if_pos hc] at h5 ⊢
      exact ⟨trivial, trivial, trivial, trivial, fun h => h5 (keys_putNew h)⟩
    · simp only [if_neg hc] at h5 ⊢
      exact ⟨trivial, trivial, trivial, trivial, h5⟩

theorem arinLine_cases (t : WhoisTables) (l : ArinLine) :
    (∃ t', arinLine t l = .ret t' ∧ (∀ k v, (∃ s, (k, v, s) ∈ t'.autnums) ↔ (∃ s, (k, v, s) ∈ t.autnums) ∨
        ((∀ v', ¬ ∃ s, (k, v', s) ∈ t.autnums) ∧ ArinNames l k v)) ∧
      t'.networks = t.networks ∧ t'.rirdata = t.rirdata ∧ t'.tmpAutnums = t.tmpAutnums ∧ t'.tmpOrgs = t.tmpOrgs ∧
      ((t.autnums.map (·.1)).Nodup → (t'.autnums.map (·.1)).Nodup)) ∨
    (∃ x, arinLine t l = .exc x ∧ FaultyArin l) := by
  unfold arinLine
  by_cases hs : l.status ≠ strFull
  · rw [if_pos hs]
    refine .inl ⟨t, rfl, fun k v => ⟨.inl, fun h => h.elim id fun h => absurd h.2.1 hs⟩, rfl, rfl, rfl, rfl, id⟩
  · rw [if_neg hs]
    have hs' : l.status = strFull := Classical.byContradiction hs
    cases h1 : pyInt l.first with
    | none =>
      refine .inr ⟨_, rfl, hs', .inl fun i hi => ?_⟩
      rw [pyInt_iff.mpr hi] at h1
      cases h1
    | some i =>
      cases h2 : pyInt l.last with
      | none =>
        refine .inr ⟨_, rfl, hs', .inr fun j hj => ?_⟩
        rw [pyInt_iff.mpr hj] at h2
        cases h2
      | some j =>
        obtain ⟨g1, g2, g3, g4, g5⟩ := arinNumbers_frame l.name (j + 1 - i).toNat t i
        refine .inl ⟨_, rfl, fun k v => ?_, g1, g2, g3, g4, g5⟩
        rw [arinNumbers_mem]
        have : (v = l.name ∧ i ≤ k ∧ (k : Int) < i + (j + 1 - i).toNat ∧ checkAsn k = true) ↔ ArinNames l k v := by
          unfold ArinNames
          rw [checkAsn_iff]
          constructor
          · rintro ⟨rfl, a, b, c⟩
            exact ⟨hs', rfl, i, j, pyInt_iff.mp h1, pyInt_iff.mp h2, a, by omega, c⟩
          · rintro ⟨-, rfl, i', j', a, b, c, d, f⟩
            rw [← pyInt_iff] at a b
            rw [h1] at a
            rw [h2] at b
            cases a
            cases b
            exact ⟨rfl, c, by omega, f⟩
        rw [this]

end Loc
