import Verif.Lemmas.Written
import Verif.Model.Enumerator
import Verif.Spec.Enum
/-
Draining AS and country enumerators.
-/
namespace Loc
open Spec

theorem lower_lower (c : Byte) : lower (lower c) = lower c := by
  unfold lower
  by_cases h : 65 ≤ c.toNat ∧ c.toNat ≤ 90
  · rw [if_pos h, if_neg]
    rw [BitVec.toNat_add]
    have : (32 : Byte).toNat = 32 := rfl
    omega
  · rw [if_neg h, if_neg h]

theorem prefixCI_iff (needle : CStr) : ∀ hay : CStr, prefixCI needle hay = true ↔
    ∃ mid post, hay = mid ++ post ∧ mid.map lower = needle.map lower := by
  induction needle with
  | nil =>
    intro hay
    simp only [prefixCI, true_iff]
    exact ⟨[], hay, rfl, rfl⟩
  | cons a needle ih =>
    intro hay
    cases hay with
    | nil =>
      simp only [prefixCI, Bool.false_eq_true, false_iff]
      rintro ⟨mid, post, h1, h2⟩
      cases mid with
      | nil => cases h2
      | cons => cases h1
    | cons b hay =>
      simp only [prefixCI, Bool.and_eq_true, ih, beq_iff_eq]
      constructor
      · rintro ⟨h1, mid, post, rfl, h2⟩
        exact ⟨b :: mid, post, rfl, by rw [List.map_cons, List.map_cons, h2]; exact congrArg (· :: _) h1.symm⟩
      · rintro ⟨mid, post, h1, h2⟩
        cases mid with
        | nil => cases h2
        | cons c mid =>
          rw [List.cons_append] at h1
          obtain ⟨rfl, rfl⟩ := List.cons.inj h1
          rw [List.map_cons, List.map_cons] at h2
          obtain ⟨h3, h4⟩ := List.cons.inj h2
          exact ⟨h3.symm, mid, post, rfl, h4⟩

theorem strcasestr_iff (needle : CStr) : ∀ hay : CStr, strcasestr hay needle = true ↔ Occurs needle hay := by
  intro hay
  induction hay with
  | nil =>
    simp only [strcasestr, prefixCI_iff]
    constructor
    · rintro ⟨mid, post, h1, h2⟩
      exact ⟨[], mid, post, h1, h2⟩
    · rintro ⟨pre, mid, post, h1, h2⟩
      obtain ⟨h3, h4⟩ := List.append_eq_nil_iff.mp h1.symm
      obtain ⟨rfl, rfl⟩ := List.append_eq_nil_iff.mp h3
      subst h4
      exact ⟨[], [], rfl, h2⟩
  | cons b hay ih =>
    simp only [strcasestr, Bool.or_eq_true, prefixCI_iff, ih]
    constructor
    · rintro (⟨mid, post, h1, h2⟩ | ⟨pre, mid, post, h1, h2⟩)
      · exact ⟨[], mid, post, h1, h2⟩
      · exact ⟨b :: pre, mid, post, by rw [h1]; rfl, h2⟩
    · rintro ⟨pre, mid, post, h1, h2⟩
      cases pre with
      | nil => exact .inl ⟨mid, post, h1, h2⟩
      | cons c pre =>
        rw [List.cons_append, List.cons_append] at h1
        exact .inr ⟨pre, mid, post, (List.cons.inj h1).2, h2⟩

theorem map_lower_toLower (s : CStr) : (s.map toLower).map lower = s.map lower := by
  rw [List.map_map]
  exact List.map_congr_left fun c _ => lower_lower c

/-- Searching with a string the caller has set. -/
theorem asMatchString_iff (number : BitVec 32) (name s : CStr) :
    asMatchString ⟨number, some name⟩ (setString s) = true ↔ Occurs s name := by
  show strcasestr name (s.map toLower) = true ↔ _
  rw [strcasestr_iff]
  unfold Occurs
  rw [map_lower_toLower]

theorem drain_step {σ α : Type} {next : σ → Res (Next α × σ)} {s s' : σ} (h : next s = next s') (fuel : Nat) :
    drain next fuel s = drain next fuel s' := by
  cases fuel with
  | zero => rfl
  | succ fuel => rw [drain, drain, h]

theorem drain_as {db : Db} {l : List AS} (hc : db.asCount = l.length)
    (hl : ∀ (i : Nat) (a : AS), l[i]? = some a → fetchAs db i = .ok (some a)) (s : Option CStr) :
    ∀ (m : List AS) (i fuel : Nat), m = l.drop i → m.length < fuel →
      drain (nextAs db s) fuel i = .ok (m.filter (asMatchString · s), true, 0) := by
  intro m
  induction m with
  | nil =>
    intro i fuel hm hf
    have hi : l.length ≤ i := List.drop_eq_nil_iff.mp hm.symm
    cases fuel with
    | zero => omega
    | succ fuel =>
      have : nextAs db s i = .ok (.done, 0) := by
        unfold nextAs
        rw [show db.asCount - i = 0 by omega]
        rfl
      rw [drain, this]
      rfl
  | cons a m ih =>
    intro i fuel hm hf
    have hi : i < l.length := by
      apply Decidable.byContradiction
      intro h
      rw [List.drop_eq_nil_of_le (by omega)] at hm
      cases hm
    rw [List.drop_eq_getElem_cons hi] at hm
    obtain ⟨ha, hm⟩ := List.cons.inj hm
    have hfe := hl i a (by rw [List.getElem?_eq_getElem hi, ha])
    have hk : db.asCount - i = (db.asCount - (i + 1)) + 1 := by omega
    have hn : nextAs db s i = if asMatchString a s then .ok (.item a, i + 1) else nextAs db s (i + 1) := by
      conv => lhs; unfold nextAs
      rw [hk, nextAsLoop, hfe]
      rfl
    by_cases hp : asMatchString a s = true
    · rw [if_pos hp] at hn
      cases fuel with
      | zero => simp at hf
      | succ fuel =>
        rw [drain, hn]
        simp only
        rw [ih (i + 1) fuel hm (by simp at hf; omega), List.filter_cons_of_pos (p := (asMatchString · s)) hp]
    · rw [if_neg hp] at hn
      rw [drain_step hn, ih (i + 1) fuel hm (by simp at hf; omega), List.filter_cons_of_neg (p := (asMatchString · s)) hp]

theorem drain_countries {db : Db} {l : List Country} (hc : db.countryCount = l.length)
    (hl : ∀ (i : Nat) (c : Country), l[i]? = some c → fetchCountry db i = .ok (some c)) :
    ∀ (m : List Country) (i fuel : Nat), m = l.drop i → m.length < fuel →
      drain (nextCountry db) fuel i = .ok (m, true, 0) := by
  intro m
  induction m with
  | nil =>
    intro i fuel hm hf
    have hi : l.length ≤ i := List.drop_eq_nil_iff.mp hm.symm
    cases fuel with
    | zero => omega
    | succ fuel =>
      have : nextCountry db i = .ok (.done, 0) := by
        unfold nextCountry
        rw [if_neg (by omega)]
      rw [drain, this]
  | cons a m ih =>
    intro i fuel hm hf
    have hi : i < l.length := by
      apply Decidable.byContradiction
      intro h
      rw [List.drop_eq_nil_of_le (by omega)] at hm
      cases hm
    rw [List.drop_eq_getElem_cons hi] at hm
    obtain ⟨ha, hm⟩ := List.cons.inj hm
    have hfe := hl i a (by rw [List.getElem?_eq_getElem hi, ha])
    have hn : nextCountry db i = .ok (.item a, i + 1) := by
      unfold nextCountry
      rw [if_pos (by omega), hfe]
    cases fuel with
    | zero => simp at hf
    | succ fuel =>
      rw [drain, hn]
      simp only
      rw [ih (i + 1) fuel hm (by simp at hf; omega)]

end Loc
