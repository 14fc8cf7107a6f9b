import Verif.Lemmas.Dates
import Verif.Props.Resolv
/-
C89: the dates that are written and read.
-/
namespace Loc.Props
open Loc Loc.Spec

/-- C89: what is written for a time before the year 10000 is the date of HTTP (`httpDate`) of its day in the Gregorian
    calendar and its time of day. -/
theorem date_text {t : Nat} (h : t < 253402300800) (days hour min sec : Nat) (hs : sec < 60) (hm : min < 60) (hh : hour < 24)
    (ht : t = ((days * 24 + hour) * 60 + min) * 60 + sec) : dateText t = httpDate days hour min sec := by
  obtain ⟨y1, y2⟩ := gmtime_year h
  have ok := gmtime_ok h
  have hd := gmtime_date t
  have hdays : t / 86400 = days := by omega
  rw [hdays] at hd
  have e1 : (gmtime t).hour = hour := by show t % 86400 / 3600 = hour; omega
  have e2 : (gmtime t).min = min := by show t % 86400 % 3600 / 60 = min; omega
  have e3 : (gmtime t).sec = sec := by show t % 86400 % 60 = sec; omega
  have e4 : (gmtime t).wday = weekday days := by
    rw [weekday_eq]
    show (4 + t / 86400) % 7 = _
    rw [hdays]
  unfold dateText dateFormat httpDate
  rw [abbr_day ok.wday, abbr_month ok.mon, decStr_four (by omega) y2, e1, e2, e3, e4, ← hd]
  simp only [twoDigits_eq, tmDate, strGmt, List.append_assoc, List.cons_append, List.nil_append]

/-- C89: the date in the DNS record is understood as the time for which it was written. -/
theorem date_read {t : Nat} (h : t < 253402300800) : parseTimestamp (dateText t) = some (t : Int) := by
  have := readDate_format (gmtime_ok h) []
  rw [List.append_nil] at this
  unfold parseTimestamp dateText
  rw [this]
  simp only
  rw [timegm_gmtime]

/-- C89: a date that is followed by anything is refused. -/
theorem date_whole {t : Nat} (h : t < 253402300800) {r : CStr} (hr : r ≠ []) : parseTimestamp (dateText t ++ r) = none := by
  unfold parseTimestamp dateText
  rw [readDate_format (gmtime_ok h)]
  cases r with
  | nil => exact absurd rfl hr
  | cons c r => rfl

/-- C89: different times have different texts. -/
theorem date_injective {t u : Nat} (ht : t < 253402300800) (hu : u < 253402300800) (h : dateText t = dateText u) : t = u := by
  have h1 := date_read ht
  rw [h, date_read hu] at h1
  have := Option.some.inj h1
  omega

/-! ## DNS replies -/

theorem ansByte_drop {ans : Bytes} {p : Nat} {a : Byte} {r : Bytes} (h : ans.drop p = a :: r) : ansByte ans p = .ok a.toNat := by
  have : ans[p]? = some a := by
    have := congrArg (fun l => l[0]?) h
    simpa using this
  unfold ansByte
  rw [this]

theorem drop_tail {ans : Bytes} {p : Nat} {a : Byte} {r : Bytes} (h : ans.drop p = a :: r) : ans.drop (p + 1) = r := by
  have := congrArg (fun l => l.drop 1) h
  simpa using this

theorem drop_app {ans : Bytes} {p : Nat} {a r : Bytes} (h : ans.drop p = a ++ r) : ans.drop (p + a.length) = r := by
  have := congrArg (fun l => l.drop a.length) h
  simpa using this

theorem getShort_be {ans : Bytes} {p n : Nat} {r : Bytes} (hn : n < 65536) (h : ans.drop p = be16 n ++ r) : getShort ans p = .ok n := by
  have h1 := ansByte_drop (a := BitVec.ofNat 8 (n / 2 ^ 8)) (r := BitVec.ofNat 8 n :: r) h
  have h2 := ansByte_drop (drop_tail (a := BitVec.ofNat 8 (n / 2 ^ 8)) (r := BitVec.ofNat 8 n :: r) h)
  unfold getShort
  rw [h1, h2]
  show Except.ok _ = _
  simp only [BitVec.toNat_ofNat]
  congr 1
  omega

theorem bufStr_text : ∀ (text : CStr) (r : Bytes), (0 : Byte) ∉ text → bufStr (text ++ 0 :: r) = .ok text
  | [], r, _ => rfl
  | c :: text, r, h => by
    have hc : c ≠ 0 := fun he => h (by rw [he]; exact List.mem_cons_self ..)
    rw [List.cons_append, bufStr, if_neg hc, bufStr_text text r (fun hm => h (List.mem_cons_of_mem _ hm))]
    rfl

theorem record_parts {ans : Bytes} {p : Nat} {r : Record} {rest : Bytes} (hc : r.classTtl.length = 6) (ht : r.type < 65536) (hl : r.data.length < 65536)
    (h : ans.drop p = r.bytes ++ rest) :
    getShort ans (p + r.name.length) = .ok r.type ∧ (∃ v, getLong ans (p + r.name.length + 4) = .ok v) ∧
    getShort ans (p + r.name.length + 8) = .ok r.data.length ∧ ans.drop (p + r.name.length + 10) = r.data ++ rest ∧
    r.bytes.length = r.name.length + 10 + r.data.length := by
  have hb : ∀ n, (be16 n).length = 2 := fun _ => rfl
  unfold Record.bytes at h ⊢
  simp only [List.append_assoc] at h
  have h1 := drop_app h
  have h2 := drop_app h1
  rw [hb] at h2
  have h3 := drop_app h2
  rw [hc] at h3
  have h4 := drop_app h3
  rw [hb] at h4
  refine ⟨getShort_be ht h1, ?_, ?_, ?_, ?_⟩
  · refine getLong_in ?_
    have := congrArg List.length h2
    simp only [List.length_drop, List.length_append, hc, hb] at this
    omega
  · refine getShort_be hl (r := r.data ++ rest) ?_
    rw [← h3]
  · rw [← h4]
  · simp only [List.length_append, hc, hb]

theorem recordLoop_reads {dn : DnExpand} {ans : Bytes} {stop : Nat} {rest : Bytes} {txt : Record} (ht : txt.type = 16) (hc : txt.classTtl.length = 6)
    (hstop : stop + rest.length = ans.length) (h512 : ans.length = 512) : ∀ (aliases : List Record) (fuel p : Nat), stop < fuel + p →
      (∀ r ∈ aliases, r.type = 5 ∧ r.classTtl.length = 6) → ans.drop p = aliases.flatMap Record.bytes ++ txt.bytes ++ rest →
      NamesAt dn ans stop p (aliases ++ [txt]) →
      ∃ q, recordLoop dn ans stop fuel p = .ok (16, txt.data.length, q) ∧ ans.drop q = txt.data ++ rest ∧ q + txt.data.length + rest.length = 512 := by
  intro aliases
  have hlen : ∀ (r : Record) (p : Nat) (tail : Bytes), ans.drop p = r.bytes ++ tail → r.data.length < 65536 ∧ p + r.bytes.length + tail.length = 512 ∨ r.bytes ++ tail = [] := by
    intro r p tail h
    by_cases he : r.bytes ++ tail = []
    · exact Or.inr he
    · left
      have h1 := congrArg List.length h
      have h2 : 0 < (r.bytes ++ tail).length := List.length_pos_iff.mpr he
      have h3 : r.data.length ≤ r.bytes.length := by
        unfold Record.bytes
        simp only [List.length_append]
        omega
      simp only [List.length_drop, List.length_append] at h1 h2
      omega
  have hne : ∀ (r : Record) (tail : Bytes), r.bytes ++ tail ≠ [] := by
    intro r tail h
    have := congrArg List.length h
    unfold Record.bytes be16 at this
    simp at this
  induction aliases with
  | nil =>
    intro fuel p hf _ hd hn
    rw [List.flatMap_nil, List.nil_append] at hd
    obtain ⟨hn1, -⟩ := hn
    rcases hlen txt p rest hd with ⟨hl, hp⟩ | he
    · obtain ⟨g1, ⟨v, g2⟩, g3, g4, g5⟩ := record_parts hc (by omega) hl hd
      have hfuel : ∃ k, fuel = k + 1 := by
        cases fuel with
        | zero => omega
        | succ k => exact ⟨k, rfl⟩
      obtain ⟨k, rfl⟩ := hfuel
      refine ⟨p + txt.name.length + 10, ?_, g4, by omega⟩
      rw [recordLoop, hn1]
      simp only
      rw [if_neg (by omega), g1, g2, g3]
      simp only [bind, Except.bind]
      rw [if_neg (by omega), ht, if_neg (by decide)]
      rfl
    · exact absurd he (hne _ _)
  | cons r aliases ih =>
    intro fuel p hf ha hd hn
    obtain ⟨hr1, hr2⟩ := ha r (List.mem_cons_self ..)
    rw [List.flatMap_cons, List.append_assoc, List.append_assoc] at hd
    obtain ⟨hn1, hn2⟩ := hn
    rcases hlen r p _ hd with ⟨hl, hp⟩ | he
    · obtain ⟨g1, ⟨v, g2⟩, g3, g4, g5⟩ := record_parts hr2 (by omega) hl hd
      simp only [List.length_append] at hp
      have hfuel : ∃ k, fuel = k + 1 := by
        cases fuel with
        | zero => omega
        | succ k => exact ⟨k, rfl⟩
      obtain ⟨k, rfl⟩ := hfuel
      have hd' := drop_app hd
      obtain ⟨q, q1, q2⟩ := ih k (p + r.bytes.length) (by omega) (fun x hx => ha x (List.mem_cons_of_mem _ hx)) (by rw [hd', List.append_assoc]) hn2
      refine ⟨q, ?_, q2⟩
      rw [recordLoop, hn1]
      simp only
      rw [if_neg (by omega), g1, g2, g3]
      simp only [bind, Except.bind]
      rw [if_neg (by omega), hr1, if_pos (show 5 = T_CNAME from rfl), show p + r.name.length + 10 + r.data.length = p + r.bytes.length by omega]
      exact q1
    · exact absurd he (hne _ _)

/-- C89: whatever aliases precede it, the first string of the TXT record in a reply is read as a date. -/
theorem reply_read {dn : DnExpand} {ans : Bytes} {stop : Nat} {text : CStr} (h : TxtReply dn ans stop text) (h0 : (0 : Byte) ∉ text) :
    discoverLatest dn ans stop = (match parseTimestamp text with | some t => .ok t | none => .error (.err EPERM)) := by
  obtain ⟨⟨header, question, qclass, aliases, txt, more, rest, e, l1, l2, l3, l4, l5, d1, d2, a1, a2, a3, a4⟩, hne, hs⟩ := h
  have hb : ∀ n, (be16 n).length = 2 := fun _ => rfl
  have hrest : 0 < rest.length := List.length_pos_iff.mpr l5
  have hd0 : ans.drop 0 = header ++ (question ++ (be16 16 ++ (qclass ++ (aliases.flatMap Record.bytes ++ txt.bytes ++ rest)))) := by
    rw [List.drop_zero, e]
    simp only [List.append_assoc]
  have hd1 := drop_app hd0
  rw [l1, Nat.zero_add] at hd1
  have hd2 := drop_app hd1
  have hd3 := drop_app hd2
  rw [hb] at hd3
  have hd4 := drop_app hd3
  rw [l2] at hd4
  have hq := congrArg List.length hd3
  simp only [List.length_append, List.length_drop, l2, l3] at hq
  obtain ⟨q, q1, q2, q3⟩ := recordLoop_reads (dn := dn) (stop := stop) a2 a3 (by omega) l3 aliases (PACKETSZ + 1) (12 + question.length + 4)
    (by have : PACKETSZ = 512 := rfl; omega) a1 hd4 d2
  have hlen : txt.data.length = text.length + more.length + 1 := by rw [a4]; simp
  have htext : 0 < text.length := List.length_pos_iff.mpr hne
  rw [a4] at q2
  have hb1 := ansByte_drop (r := text ++ more ++ rest) q2
  rw [BitVec.toNat_ofNat, Nat.mod_eq_of_lt hs] at hb1
  have hq2 := drop_tail (r := text ++ more ++ rest) q2
  have htail : ∃ b tl, more ++ rest = b :: tl := by
    cases hm : more ++ rest with
    | nil =>
      have := congrArg List.length hm
      simp only [List.length_append, List.length_nil] at this
      omega
    | cons b tl => exact ⟨b, tl, rfl⟩
  obtain ⟨b, tl, htl⟩ := htail
  rw [List.append_assoc, htl] at hq2
  have hset : (ans.set (q + 1 + text.length) 0).drop (q + 1) = text ++ 0 :: tl := by
    rw [List.drop_set, if_neg (by omega), hq2, show q + 1 + text.length - (q + 1) = text.length by omega, List.set_append_right _ _ (Nat.le_refl _), Nat.sub_self]
    rfl
  unfold discoverLatest discover
  rw [if_neg (by have : (PACKETSZ : Int) = 512 := rfl; omega)]
  simp only [Int.toNat_natCast]
  rw [d1]
  simp only
  rw [if_neg (by omega), getShort_be (by decide) hd2]
  simp only [bind, Except.bind]
  rw [if_neg (by decide), q1]
  simp only
  rw [if_neg (by decide), if_neg (by omega), hb1]
  simp only
  rw [if_neg (by omega), if_neg (by omega), hset, bufStr_text text tl h0]
  simp only
  cases parseTimestamp text <;> rfl

theorem date_no_nul {t : Nat} (h : t < 253402300800) : (0 : Byte) ∉ dateText t ∧ dateText t ≠ [] ∧ (dateText t).length = 29 := by
  obtain ⟨y1, y2⟩ := gmtime_year h
  have ok := gmtime_ok h
  have hdig : ∀ n : Nat, n < 10 → (0 : Byte) ≠ BitVec.ofNat 8 (48 + n) := by
    intro n hn he
    have := congrArg BitVec.toNat he
    simp at this
    omega
  have h2 : ∀ n, (0 : Byte) ∉ twoDigits n ∧ (twoDigits n).length = 2 := by
    intro n
    rw [twoDigits_eq]
    refine ⟨?_, rfl⟩
    simp only [digits, List.nil_append, List.mem_append, List.mem_singleton, not_or]
    exact ⟨hdig _ (by omega), hdig _ (by omega)⟩
  have hday : (0 : Byte) ∉ abbr dayNames (gmtime t).wday ∧ (abbr dayNames (gmtime t).wday).length = 3 := by
    have := ok.wday
    have : ∀ w, w < 7 → (0 : Byte) ∉ abbr dayNames w ∧ (abbr dayNames w).length = 3 := by decide
    exact this _ ok.wday
  have hmon : (0 : Byte) ∉ abbr monthNames (gmtime t).mon ∧ (abbr monthNames (gmtime t).mon).length = 3 := by
    have : ∀ w, w < 12 → (0 : Byte) ∉ abbr monthNames w ∧ (abbr monthNames w).length = 3 := by decide
    exact this _ ok.mon
  have hyear : (0 : Byte) ∉ decStr (gmtime t).year ∧ (decStr (gmtime t).year).length = 4 := by
    rw [decStr_four (by omega) y2]
    refine ⟨?_, rfl⟩
    simp only [digits, List.nil_append, List.mem_append, List.mem_singleton, not_or]
    exact ⟨⟨⟨hdig _ (by omega), hdig _ (by omega)⟩, hdig _ (by omega)⟩, hdig _ (by omega)⟩
  have hlen : (dateText t).length = 29 := by
    unfold dateText dateFormat strGmt
    simp only [List.length_append, List.length_cons, List.length_nil, hday.2, hmon.2, hyear.2, (h2 _).2]
  refine ⟨?_, (fun he => by rw [he] at hlen; cases hlen), hlen⟩
  unfold dateText dateFormat strGmt
  simp only [List.mem_append, List.mem_cons, not_or]
  simp
  exact ⟨⟨⟨⟨⟨⟨hday.1, (h2 _).1⟩, hmon.1⟩, hyear.1⟩, (h2 _).1⟩, (h2 _).1⟩, (h2 _).1⟩

/-- C89: if the TXT record holds the date of a database, `loc_discover_latest_version` returns the time at which it was made. -/
theorem date_discovered {dn : DnExpand} {ans : Bytes} {stop t : Nat} (ht : t < 253402300800) (h : TxtReply dn ans stop (dateText t)) :
    discoverLatest dn ans stop = .ok (t : Int) := by
  rw [reply_read h (date_no_nul ht).1, date_read ht]

/-! ## Examples -/

/-- 16 November 2026, 20:30:00, a Monday -/
example : dateText 1794861000 = [77, 111, 110, 44, 32, 49, 54, 32, 78, 111, 118, 32, 50, 48, 50, 54, 32, 50, 48, 58, 51, 48, 58, 48, 48, 32, 71, 77, 84] ∧
    1794861000 < 253402300800 ∧ 1794861000 = ((20773 * 24 + 20) * 60 + 30) * 60 + 0 := by
  decide +kernel

/-- The last day of February in a leap year, in 2024, and the last second of 9999 -/
example : parseTimestamp (dateText 1709164800) = some 1709164800 ∧ dateOfDay 789 = ⟨1972, 2, 29⟩ ∧
    parseTimestamp (dateText 253402300799) = some 253402300799 := by
  decide +kernel

/-- The year 10000 is written, but not read. -/
example : parseTimestamp (dateText 253402300800) = none := by
  decide +kernel

/-- What the function does not check: the day of the week and whether the day exists ("Mon, 31 Feb 2022 00:00:00 GMT" is
    3 March 2022). -/
example : parseTimestamp [77, 111, 110, 44, 32, 51, 49, 32, 70, 101, 98, 32, 50, 48, 50, 50, 32, 48, 48, 58, 48, 48, 58, 48, 48, 32, 71, 77, 84] =
    some 1646265600 ∧ dateText 1646265600 = [84, 104, 117, 44, 32, 48, 51, 32, 77, 97, 114, 32, 50, 48, 50, 50, 32, 48, 48, 58, 48, 48, 58, 48, 48, 32, 71, 77, 84] := by
  decide +kernel

/-- A reply with one alias and the date of 29 February 2024; all names are the root. -/
def dateReply : Bytes :=
  List.replicate 12 1 ++ [0] ++ be16 16 ++ be16 1 ++
  [(⟨[0], 5, [0, 1, 0, 0, 0, 9], [0]⟩ : Record)].flatMap Record.bytes ++
  (⟨[0], 16, [0, 1, 0, 0, 0, 9], 29 :: (dateText 1709164800 ++ [])⟩ : Record).bytes ++ List.replicate 442 7

set_option maxRecDepth 100000 in
example : TxtReply plainName dateReply 70 (dateText 1709164800) ∧ discoverLatest plainName dateReply 70 = .ok 1709164800 := by
  have h : TxtReply plainName dateReply 70 (dateText 1709164800) := by
    refine ⟨⟨List.replicate 12 1, [0], be16 1, [⟨[0], 5, [0, 1, 0, 0, 0, 9], [0]⟩], ⟨[0], 16, [0, 1, 0, 0, 0, 9], 29 :: (dateText 1709164800 ++ [])⟩, [],
      List.replicate 442 7, rfl, rfl, rfl, by decide +kernel, rfl, List.cons_ne_nil _ _, by decide +kernel, ⟨by decide +kernel, by decide +kernel, trivial⟩, ?_, rfl, rfl, ?_⟩,
      by decide +kernel, by decide +kernel⟩
    · intro r hr
      rw [List.mem_singleton] at hr
      subst hr
      exact ⟨rfl, rfl⟩
    · decide +kernel
  exact ⟨h, date_discovered (by decide) h⟩

end Loc.Props
