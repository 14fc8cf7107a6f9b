import Verif.Model.Resolv
import Batteries.Lean.Except
/-
C43: DNS replies are parsed inside of the reply buffer.
-/
namespace Loc.Spec
open Loc

/-- What is assumed about `dn_expand`: a name it accepts is not empty and lies inside of the
    message. -/
def Expands (dn : DnExpand) : Prop := ∀ ans stop p n, dn ans stop p = some n → 0 < n ∧ p + n ≤ stop

/-- A function with this property: the root (one zero byte) is the only name. -/
def plainName (ans : Bytes) (stop p : Nat) : Option Nat := if p < stop ∧ ans[p]? = some 0 then some 1 else none

end Loc.Spec

namespace Loc.Props
open Loc Loc.Spec

theorem plainName_expands : Expands plainName := by
  intro ans stop p n h
  unfold plainName at h
  split at h
  · simp only [Option.some.injEq] at h
    omega
  · cases h

theorem ansByte_in {ans : Bytes} {i : Nat} (h : i < ans.length) : ansByte ans i = .ok ans[i].toNat := by
  unfold ansByte
  rw [List.getElem?_eq_getElem h]

theorem getShort_in {ans : Bytes} {i : Nat} (h : i + 1 < ans.length) : ∃ v, getShort ans i = .ok v := by
  unfold getShort
  rw [ansByte_in (by omega), ansByte_in h]
  exact ⟨_, rfl⟩

theorem getLong_in {ans : Bytes} {i : Nat} (h : i + 3 < ans.length) : ∃ v, getLong ans i = .ok v := by
  unfold getLong
  obtain ⟨a, ha⟩ := getShort_in (ans := ans) (i := i) (by omega)
  obtain ⟨b, hb⟩ := getShort_in (ans := ans) (i := i + 2) (by omega)
  rw [ha, hb]
  exact ⟨_, rfl⟩

theorem recordLoop_in {dn : DnExpand} (hd : Expands dn) {ans : Bytes} {stop : Nat} (hs : stop ≤ ans.length) :
    ∀ fuel payload, 0 < fuel → stop < fuel + payload → (∃ t s p, recordLoop dn ans stop fuel payload = .ok (t, s, p) ∧ p + s ≤ stop) ∨
      recordLoop dn ans stop fuel payload = .error (.err EPERM) := by
  intro fuel
  induction fuel with
  | zero =>
    intro payload h0 h
    omega
  | succ fuel ih =>
    intro payload _ h
    rw [recordLoop]
    cases hn : dn ans stop payload with
    | none => exact Or.inr rfl
    | some len =>
      obtain ⟨h1, h2⟩ := hd _ _ _ _ hn
      simp only
      by_cases h3 : payload + len + 10 > stop
      · rw [if_pos h3]
        exact Or.inr rfl
      · rw [if_neg h3]
        obtain ⟨t, ht⟩ := getShort_in (ans := ans) (i := payload + len) (by omega)
        obtain ⟨l, hl⟩ := getLong_in (ans := ans) (i := payload + len + 4) (by omega)
        obtain ⟨s, hs'⟩ := getShort_in (ans := ans) (i := payload + len + 8) (by omega)
        rw [ht, hl, hs']
        simp only [bind, Except.bind]
        by_cases h4 : payload + len + 10 + s > stop
        · rw [if_pos h4]
          exact Or.inr rfl
        · rw [if_neg h4]
          by_cases h5 : t = T_CNAME
          · rw [if_pos h5]
            exact ih _ (by omega) (by omega)
          · rw [if_neg h5]
            exact Or.inl ⟨_, _, _, rfl, by omega⟩

theorem bufStr_in : ∀ (l : Bytes) (k : Nat), l[k]? = some 0 → ∃ s, bufStr l = .ok s := by
  intro l
  induction l with
  | nil => intro k h; simp at h
  | cons c l ih =>
    intro k h
    rw [bufStr]
    by_cases hc : c = 0
    · rw [if_pos hc]
      exact ⟨_, rfl⟩
    · rw [if_neg hc]
      cases k with
      | zero => simp at h; exact absurd h hc
      | succ k =>
        rw [List.getElem?_cons_succ] at h
        obtain ⟨s, hs⟩ := ih k h
        rw [hs]
        exact ⟨_, rfl⟩

/-- Everything that can happen: a time, an error, or the write behind the buffer, which needs a
    reply that fills the buffer and a string that ends with it. -/
theorem discover_cases {dn : DnExpand} (hd : Expands dn) {T : Type} (timestamp : CStr → Option T) {ans : Bytes} (ha : ans.length = 512) (reply : Int) :
    (∃ t, discover dn timestamp ans reply = .ok t) ∨ discover dn timestamp ans reply = .error (.err EPERM) ∨
    (discover dn timestamp ans reply = .error .oob ∧ reply = 512 ∧ ∃ p l, ans[p]? = some l ∧ p + 1 + l.toNat = 512) := by
  unfold discover
  by_cases h0 : reply < 0 ∨ reply > (PACKETSZ : Int)
  · rw [if_pos h0]
    exact Or.inr (Or.inl rfl)
  · rw [if_neg h0]
    have hp : (PACKETSZ : Int) = 512 := rfl
    rw [hp] at h0
    simp only
    cases hn : dn ans reply.toNat 12 with
    | none => exact Or.inr (Or.inl rfl)
    | some len =>
      obtain ⟨h1, h2⟩ := hd _ _ _ _ hn
      simp only
      by_cases h3 : 12 + len + 4 > reply.toNat
      · rw [if_pos h3]
        exact Or.inr (Or.inl rfl)
      · rw [if_neg h3]
        obtain ⟨t, ht⟩ := getShort_in (ans := ans) (i := 12 + len) (by omega)
        rw [ht]
        simp only [bind, Except.bind]
        by_cases h4 : t ≠ T_TXT
        · rw [if_pos h4]
          exact Or.inr (Or.inl rfl)
        · rw [if_neg h4]
          rcases recordLoop_in hd (ans := ans) (stop := reply.toNat) (by omega) (PACKETSZ + 1) (12 + len + 4) (by omega)
            (by have : PACKETSZ = 512 := rfl; omega) with ⟨ty, s, p, hr, hps⟩ | hr
          · rw [hr]
            simp only
            by_cases h5 : ty ≠ T_TXT
            · rw [if_pos h5]
              exact Or.inr (Or.inl rfl)
            · rw [if_neg h5]
              by_cases h6 : s = 0
              · rw [if_pos h6]
                exact Or.inr (Or.inl rfl)
              · rw [if_neg h6, ansByte_in (i := p) (by omega)]
                simp only
                by_cases h7 : ans[p].toNat ≥ s ∨ ans[p].toNat = 0
                · rw [if_pos h7]
                  exact Or.inr (Or.inl rfl)
                · rw [if_neg h7]
                  by_cases h8 : p + 1 + ans[p].toNat ≥ ans.length
                  · rw [if_pos h8]
                    refine Or.inr (Or.inr ⟨rfl, by omega, p, ans[p], List.getElem?_eq_getElem (by omega), by omega⟩)
                  · rw [if_neg h8]
                    obtain ⟨x, hx⟩ := bufStr_in ((ans.set (p + 1 + ans[p].toNat) 0).drop (p + 1)) ans[p].toNat (by
                      rw [List.getElem?_drop, List.getElem?_set, if_pos rfl, if_pos (by omega)])
                    rw [hx]
                    simp only
                    cases timestamp x with
                    | some v => exact Or.inl ⟨v, rfl⟩
                    | none => exact Or.inr (Or.inl rfl)
          · rw [hr]
            exact Or.inr (Or.inl rfl)

/-- C43 for all replies that do not fill the buffer, or in which no string ends exactly with it:
    every access is inside of the buffer, the loop ends, and the function returns a time or
    reports an error.  Missing: see `dns_violated`. -/
theorem dns_inside_partial {dn : DnExpand} (hd : Expands dn) {T : Type} (timestamp : CStr → Option T) {ans : Bytes} (ha : ans.length = 512) (reply : Int)
    (h : reply < 512 ∨ ¬ ∃ p l, ans[p]? = some l ∧ p + 1 + l.toNat = 512) :
    (∃ t, discover dn timestamp ans reply = .ok t) ∨ discover dn timestamp ans reply = .error (.err EPERM) := by
  rcases discover_cases hd timestamp ha reply with h1 | h1 | ⟨h1, h2, h3⟩
  · exact Or.inl h1
  · exact Or.inr h1
  · rcases h with h | h
    · omega
    · exact absurd h3 h

/-- A reply with a `CNAME` record of `k` bytes and a `TXT` record with the text `s`, for the name
    "."; the rest of the buffer is 0. -/
def dnsReply (k : Nat) (s : CStr) : Bytes :=
  let used := List.replicate 12 0 ++ [0, 0, 16, 0, 1] ++
    [0, 0, 5, 0, 1, 0, 0, 0, 60] ++ be16 k ++ List.replicate k 0 ++
    [0, 0, 16, 0, 1, 0, 0, 0, 60] ++ be16 (s.length + 1) ++ [BitVec.ofNat 8 s.length] ++ s
  used ++ List.replicate (512 - used.length) 0

/-- The text of a reply is found. -/
example : Expands plainName ∧ (dnsReply 20 [65, 66, 67]).length = 512 ∧
    discover plainName (fun s => if s = [65, 66, 67] then some 1234 else none) (dnsReply 20 [65, 66, 67]) 63 = .ok 1234 :=
  ⟨plainName_expands, by decide +kernel, by decide +kernel⟩

/-- 512 bytes; the text of 29 characters is the end of the reply. -/
def fullReply : Bytes := dnsReply 443 (List.replicate 29 65)

theorem fullReply_length : fullReply.length = 512 := by decide +kernel

/-- C43 violated: a reply of 512 bytes whose text ends with the buffer makes the function write a
    byte behind the buffer. -/
theorem dns_violated : ∃ dn : DnExpand, Expands dn ∧ ∃ ans : Bytes, ans.length = 512 ∧
    ∀ (T : Type) (timestamp : CStr → Option T), discover dn timestamp ans 512 = .error .oob := by
  refine ⟨plainName, plainName_expands, fullReply, fullReply_length, ?_⟩
  intro T timestamp
  have h1 : plainName fullReply 512 12 = some 1 := by decide +kernel
  have h2 : getShort fullReply 13 = .ok 16 := by decide +kernel
  have h3 : recordLoop plainName fullReply 512 (PACKETSZ + 1) 17 = .ok (16, 30, 482) := by decide +kernel
  have h4 : ansByte fullReply 482 = .ok 29 := by decide +kernel
  unfold discover
  rw [if_neg (by decide)]
  simp only [show (512 : Int).toNat = 512 from rfl, h1]
  rw [if_neg (by decide), h2]
  simp only [bind, Except.bind]
  rw [if_neg (by decide), h3]
  simp only
  rw [if_neg (by decide), if_neg (by decide), h4]
  simp only
  rw [if_neg (by decide), if_pos (by rw [fullReply_length]; decide)]
  rfl

end Loc.Props
