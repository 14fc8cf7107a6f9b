import Verif.Model.Formats
import Verif.Spec.Formats
import Verif.Props.Text
/-
Reading back the output formats.
-/
namespace Loc
open Loc.Spec Loc.Props

/-! ### Fields -/

theorem pieces_ne_nil (sep : Byte) (s : Bytes) : pieces sep s ≠ [] := by
  cases s with
  | nil => simp [pieces]
  | cons c s =>
    rw [pieces]
    split
    · simp
    · split <;> simp

theorem pieces_append (sep : Byte) (a b : Bytes) : pieces sep (a ++ sep :: b) = pieces sep a ++ pieces sep b := by
  induction a with
  | nil => simp [pieces]
  | cons c a ih =>
    rw [List.cons_append, pieces, pieces]
    by_cases hc : c = sep
    · rw [if_pos hc, if_pos hc, ih]
      rfl
    · rw [if_neg hc, if_neg hc, ih]
      cases hp : pieces sep a with
      | nil => exact absurd hp (pieces_ne_nil sep a)
      | cons p ps => rfl

theorem pieces_single {sep : Byte} {a : Bytes} (h : sep ∉ a) : pieces sep a = [a] := by
  induction a with
  | nil => rfl
  | cons c a ih =>
    rw [pieces, if_neg (by rintro rfl; exact h List.mem_cons_self), ih (fun hm => h (List.mem_cons_of_mem _ hm))]

theorem fields_append (sep : Byte) (a b : Bytes) : fields sep (a ++ sep :: b) = fields sep a ++ fields sep b := by
  unfold fields
  rw [pieces_append, List.filter_append]

theorem fields_single {sep : Byte} {a : Bytes} (h : sep ∉ a) (hne : a ≠ []) : fields sep a = [a] := by
  unfold fields
  rw [pieces_single h]
  cases a with
  | nil => exact absurd rfl hne
  | cons c a => rfl

theorem fields_nil (sep : Byte) : fields sep [] = [] := rfl

theorem fields_line {sep : Byte} {a : Bytes} (h : sep ∉ a) (hne : a ≠ []) (b : Bytes) : fields sep (a ++ sep :: b) = a :: fields sep b := by
  rw [fields_append, fields_single h hne]
  rfl

theorem fields_spaces (k : Nat) (s : Bytes) : fields 32 (List.replicate k 32 ++ s) = fields 32 s := by
  induction k with
  | zero => rfl
  | succ k ih =>
    rw [List.replicate_succ, List.cons_append, ← ih]
    exact fields_append 32 [] _

/-! ### Texts -/

theorem numberOf_numeral {k : Nat} {s : CStr} (h : Numeral 10 k s) : numberOf s = some k := by
  have hne := numeral_ne_nil h
  obtain ⟨ds, h1, h2, h3, -, h5⟩ := h
  unfold numberOf
  rw [if_neg (by simpa using hne)]
  have : s.mapM (fun c => (digitOf c).filter (· < 10)) = some ds := by
    clear hne h3 h5
    induction s generalizing ds with
    | nil =>
      cases ds with
      | nil => rfl
      | cons d ds => cases h1
    | cons c s ih =>
      cases ds with
      | nil => cases h1
      | cons d ds =>
        simp only [List.map_cons, List.cons.injEq] at h1
        rw [List.mapM_cons, h1.1, ih ds h1.2 (fun d hd => h2 d (List.mem_cons_of_mem _ hd))]
        have hd : d < 10 := h2 d List.mem_cons_self
        simp [Option.filter, hd]
  rw [this, Option.map_some, h5]

theorem dec_plain {n : Nat} (h : n < 10 ^ 10) : Plain (decStr n) ∧ 58 ∉ decStr n := by
  have hn := decStr_numeral h
  have hc := numeral_chars hn
  exact ⟨⟨numeral_ne_nil hn, fun hm => hc 10 hm (by decide), fun hm => hc 32 hm (by decide)⟩, fun hm => hc 58 hm (by decide)⟩

theorem netPrefix_small {n : Network} (hb : Block n) : netPrefix n < 10 ^ 10 := by
  have := hb.le
  unfold netPrefix
  split <;> omega

theorem netText_plain {n : Network} (hb : Block n) : Plain (netText n) ∧ (netText n).contains 58 = decide (n.family = .inet6) := by
  obtain ⟨⟨-, d1, d2⟩, d3⟩ := dec_plain (netPrefix_small hb)
  have hp := addrText_denotes n.first
  have hfam : addrFamily n.first = n.family := by
    have hf := hb.fam
    have hv := isV4Mapped_iff n.first
    unfold addrFamily
    cases hfm : n.family with
    | inet => rw [if_pos (hv.mpr (hf.mp hfm))]
    | inet6 =>
      rw [if_neg]
      intro h
      rw [hf.mpr (hv.mp h)] at hfm
      cases hfm
  unfold netText Plain
  rw [hfam] at hp
  cases hfm : n.family with
  | inet =>
    rw [hfm] at hp
    obtain ⟨l, hl, -⟩ := parseText_inet.mp hp
    obtain ⟨-, hc⟩ := ipv4_chars hl
    have hno : ∀ c : Byte, c ≠ 46 → decVal c = none → c ∉ addrText n.first := by
      intro c c1 c2 hm
      rcases hc c hm with h | h
      · exact c1 h
      · exact h c2
    refine ⟨⟨by simp, ?_, ?_⟩, ?_⟩
    · simp only [List.mem_append, List.mem_cons, not_or]
      exact ⟨hno 10 (by decide) (by decide), by decide, d1⟩
    · simp only [List.mem_append, List.mem_cons, not_or]
      exact ⟨hno 32 (by decide) (by decide), by decide, d2⟩
    · rw [Bool.eq_iff_iff, List.contains_iff_mem]
      constructor
      · intro hm
        simp only [List.mem_append, List.mem_cons] at hm
        rcases hm with hm | hm | hm
        · exact absurd hm (hno 58 (by decide) (by decide))
        · exact absurd hm (by decide)
        · exact absurd hm d3
      · intro hm
        simp at hm
  | inet6 =>
    rw [hfm] at hp
    obtain ⟨-, -, h58, hc⟩ := ipv6_chars (parseText_inet6.mp hp)
    have hno : ∀ c : Byte, c ≠ 46 → c ≠ 58 → hexVal c = none → c ∉ addrText n.first := by
      intro c c1 c2 c3 hm
      rcases hc c hm with h | h | h
      · exact c1 h
      · exact c2 h
      · exact h c3
    refine ⟨⟨by simp, ?_, ?_⟩, ?_⟩
    · simp only [List.mem_append, List.mem_cons, not_or]
      exact ⟨hno 10 (by decide) (by decide) (by decide), by decide, d1⟩
    · simp only [List.mem_append, List.mem_cons, not_or]
      exact ⟨hno 32 (by decide) (by decide) (by decide), by decide, d2⟩
    · rw [Bool.eq_iff_iff, List.contains_iff_mem]
      constructor
      · intro _; simp
      · intro _; exact List.mem_append_left _ h58

/-- The text is the one the library makes, and it is read back as the same block. -/
theorem netText_reads {n : Network} (hb : Block n) : (∃ st, networkStr fmtInit n [] = .ok (st, some (netText n), netText n)) ∧
    ∃ m, newFromString (some (netText n)) = .ok m ∧ m.family = n.family ∧ m.first = n.first ∧ m.last = n.last ∧ m.pfx = n.pfx := by
  obtain ⟨st, st', s, m, h1, h2, h3, h4, h5, h6, h7, -⟩ := network_string_roundtrip hb []
  cases h1
  have hs : s = netText n := by
    have hl := (network_parse hb).2.1
    unfold networkStr at h2
    rw [if_pos (show ([] : CStr).isEmpty = true from rfl), addressStr_spec (by decide)] at h2
    simp only [bind, Except.bind] at h2
    rw [dif_pos (by decide)] at h2
    simp only [Vector.getElem_set_self, Except.ok.injEq, Prod.mk.injEq, Option.some.injEq] at h2
    rw [← h2.2.1, List.take_of_length_le hl]
    rfl
  subst hs
  exact ⟨⟨st', h2⟩, m, h3, h4, h5, h6, h7⟩

theorem netText_shows {n : Network} (hb : Block n) : Shows (netText n) n := by
  obtain ⟨h1, -, h3⟩ := network_parse hb
  obtain ⟨-, m, m1, m2, m3, m4, m5⟩ := netText_reads hb
  unfold netText at m1
  rw [h1] at m1
  obtain ⟨-, -, -, c4, -⟩ := new_canonical _ _ _ m1
  rw [m5] at c4
  have hp := addrText_denotes n.first
  have hv := isV4Mapped_iff n.first
  unfold width at h3
  unfold familyStart at c4
  have hf : addrFamily n.first = if IsV4 n.first then .inet else .inet6 := by
    unfold addrFamily
    by_cases h : IsV4 n.first
    · rw [if_pos (hv.mpr h), if_pos h]
    · rw [if_neg (fun h' => h (hv.mp h')), if_neg h]
  rw [hf] at hp
  by_cases h : IsV4 n.first
  · rw [if_pos h] at hp c4 h3
    obtain ⟨l, l1, l2⟩ := parseText_inet.mp hp
    exact ⟨_, _, netPrefix n, 32, rfl, Or.inr ⟨l, l1, l2⟩, Or.inr ⟨⟨l, l1⟩, rfl⟩, decStr_numeral (netPrefix_small hb), h3, by omega⟩
  · rw [if_neg h] at hp c4 h3
    have := parseText_inet6.mp hp
    exact ⟨_, _, netPrefix n, 128, rfl, Or.inl this, Or.inl ⟨⟨_, this⟩, rfl⟩, decStr_numeral (netPrefix_small hb), h3, by omega⟩

theorem netText_inj {m n : Network} (hm : Block m) (hn : Block n) (h : netText m = netText n) : m.first = n.first ∧ m.pfx = n.pfx := by
  obtain ⟨-, x, x1, x2, x3, x4, x5⟩ := netText_reads hm
  obtain ⟨-, y, y1, y2, y3, y4, y5⟩ := netText_reads hn
  rw [h, y1] at x1
  cases x1
  exact ⟨x3.symm.trans y3, x5.symm.trans y5⟩

/-! ### Files -/

/-- Writing happens at the end. -/
def AtEnd (f : OutFile) : Prop := f.kind = .file → f.pos = f.content.length

theorem filePut_end {f : OutFile} (h : AtEnd f) (s : Bytes) : (filePut f s).content = f.content ++ s ∧ (filePut f s).kind = f.kind ∧ AtEnd (filePut f s) := by
  obtain ⟨kind, content, pos⟩ := f
  cases kind with
  | file =>
    have hp : pos = content.length := h rfl
    subst hp
    unfold filePut
    simp only [List.take_length]
    rw [List.drop_of_length_le (by omega), List.append_nil]
    exact ⟨rfl, trivial, fun _ => by simp⟩
  | pipe => exact ⟨rfl, rfl, fun h => by cases h⟩
  | append => exact ⟨rfl, rfl, fun h => by cases h⟩

theorem foldl_put {f : OutFile} (h : AtEnd f) (line : CStr → CStr) (nets : List CStr) :
    (nets.foldl (fun f s => filePut f (line s)) f).content = f.content ++ nets.flatMap line ∧
    (nets.foldl (fun f s => filePut f (line s)) f).kind = f.kind ∧ AtEnd (nets.foldl (fun f s => filePut f (line s)) f) := by
  induction nets generalizing f with
  | nil => exact ⟨by simp, rfl, h⟩
  | cons s nets ih =>
    obtain ⟨h1, h2, h3⟩ := filePut_end h (line s)
    obtain ⟨g1, g2, g3⟩ := ih h3
    rw [List.foldl_cons]
    exact ⟨by rw [g1, h1, List.flatMap_cons, List.append_assoc], by rw [g2, h2], g3⟩

/-! ### ipset -/

/-- The text of one set, with some number of networks in the header. -/
def ipsetText (expo : Nat → Nat) (tag : CStr) (family k : Nat) (nets : List CStr) : CStr :=
  ipsetHeader expo tag family k ++ nets.flatMap (networkLine .ipset tag)

theorem any_last {S : List IpSet} {x : IpSet} (p : IpSet → Bool) (h : ∀ y ∈ S, p y = false) : (S ++ [x]).any p = p x := by
  rw [List.any_append, List.any_eq_false.mpr (by intro y hy; simp [h y hy])]
  simp

theorem map_last {S : List IpSet} {x : IpSet} {name : CStr} (hn : ∀ y ∈ S, y.name ≠ name) (hx : x.name = name) (g : IpSet → IpSet) :
    (S ++ [x]).map (fun y => if y.name = name then g y else y) = S ++ [g x] := by
  rw [List.map_append, List.map_cons, List.map_nil, if_pos hx]
  congr 1
  rw [List.map_congr_left (g := id) (by intro y hy; rw [if_neg (hn y hy)]; rfl), List.map_id]

theorem ipset_add_line {tag s : CStr} (ht : Plain tag) (hs : Plain s) (S : List IpSet) (rest : Bytes) :
    ipsetLines S (fields 10 (networkLine .ipset tag s ++ rest)) =
      match ipsetAdd S tag s with
      | none => none
      | some S => ipsetLines S (fields 10 rest) := by
  have h1 : networkLine .ipset tag s ++ rest = (addWord ++ 32 :: (tag ++ 32 :: s)) ++ 10 :: rest := by
    simp [networkLine, strAdd, addWord]
  have h10 : (10 : Byte) ∉ addWord ++ 32 :: (tag ++ 32 :: s) := by
    simp only [List.mem_append, List.mem_cons, not_or]
    exact ⟨by decide, by decide, ht.2.1, by decide, hs.2.1⟩
  rw [h1, fields_line h10 (by simp), ipsetLines]
  have h2 : fields 32 (addWord ++ 32 :: (tag ++ 32 :: s)) = [addWord, tag, s] := by
    rw [fields_line (by decide) (by decide), fields_line ht.2.2 ht.1, fields_single hs.2.2 hs.1]
  rw [ipsetLine, h2]
  simp only [if_true]
  cases ipsetAdd S tag s <;> rfl

theorem ipset_adds {tag : CStr} (ht : Plain tag) {S : List IpSet} (hS : ∀ y ∈ S, y.name ≠ tag) {i6 : Bool} {mx : Nat} (rest : Bytes) :
    ∀ (nets els : List CStr), (∀ s ∈ nets, Plain s ∧ s.contains 58 = i6) → (els ++ nets).Nodup →
    ipsetLines (S ++ [⟨tag, i6, mx, els⟩]) (fields 10 (nets.flatMap (networkLine .ipset tag) ++ rest)) =
      if els.length + nets.length ≤ mx ∨ nets = [] then ipsetLines (S ++ [⟨tag, i6, mx, els ++ nets⟩]) (fields 10 rest) else none := by
  intro nets
  induction nets with
  | nil => intro els _ _; rw [if_pos (Or.inr rfl)]; simp
  | cons s nets ih =>
    intro els hp hn
    obtain ⟨hs1, hs2⟩ := hp s List.mem_cons_self
    rw [List.flatMap_cons, List.append_assoc, ipset_add_line ht hs1]
    have hnot : s ∉ els := by
      intro hm
      rw [List.nodup_append] at hn
      exact hn.2.2 s hm s List.mem_cons_self rfl
    have hadd : ipsetAdd (S ++ [⟨tag, i6, mx, els⟩]) tag s = if els.length < mx then some (S ++ [⟨tag, i6, mx, els ++ [s]⟩]) else none := by
      unfold ipsetAdd
      rw [any_last _ (by intro y hy; simp [hS y hy]), map_last hS rfl]
      simp only [beq_self_eq_true, Bool.true_and, hs2, Bool.and_eq_true, decide_eq_true_eq]
      rw [show els.contains s = false by rw [Bool.eq_false_iff, Ne, List.contains_iff_mem]; exact hnot]
      by_cases hl : els.length < mx
      · rw [if_pos ⟨rfl, hl⟩, if_pos hl]
      · rw [if_neg (fun h => hl h.2), if_neg hl]
    rw [hadd]
    by_cases hl : els.length < mx
    · rw [if_pos hl]
      simp only []
      rw [ih (els ++ [s]) (fun t ht => hp t (List.mem_cons_of_mem _ ht)) (by simpa using hn)]
      simp only [List.length_append, List.length_cons, List.length_nil, List.append_assoc, List.cons_append, List.nil_append, reduceCtorEq, or_false]
      by_cases hc : els.length + (nets.length + 1) ≤ mx
      · rw [if_pos hc, if_pos (Or.inl (by omega))]
      · rw [if_neg hc, if_neg]
        rintro (h | rfl)
        · omega
        · simp only [List.length_nil] at hc
          omega
    · rw [if_neg hl, if_neg]
      simp only [List.length_cons, reduceCtorEq, or_false]
      omega

theorem hash_small {expo : Nat → Nat} {k : Nat} (h : hashsize expo k < 10 ^ 8) : Plain (decStr (hashsize expo k)) ∧
    numberOf (decStr (hashsize expo k)) = some (hashsize expo k) ∧ (pad8 (decStr (hashsize expo k))).length = 8 := by
  have h10 : hashsize expo k < 10 ^ 10 := Nat.lt_trans h (by decide)
  refine ⟨(dec_plain h10).1, numberOf_numeral (decStr_numeral h10), ?_⟩
  have := numeral_length (decStr_numeral h10) h (by decide)
  unfold pad8
  rw [List.length_append, List.length_replicate]
  omega

/-- "create TAG hash:net family inet hashsize N maxelem 1048576 -exist" without the newline -/
theorem ipset_header {expo : Nat → Nat} {tag : CStr} (ht : Plain tag) {family k : Nat} (hh : hashsize expo k < 10 ^ 8) (S : List IpSet) (rest : Bytes) :
    ipsetLines S (fields 10 (ipsetHeader expo tag family k ++ rest)) =
      if S.any (·.name == tag) then ipsetLines (S.map fun x => if x.name = tag then { x with elems := [] } else x) (fields 10 rest)
      else ipsetLines (S ++ [⟨tag, decide (family = 10), 1048576, []⟩]) (fields 10 rest) := by
  obtain ⟨p1, p2, -⟩ := hash_small hh
  generalize hd : decStr (hashsize expo k) = d at p1 p2
  generalize hf : (if family = 10 then ([54] : CStr) else []) = x6
  have hx6 : x6 = if family = 10 then [54] else [] := hf.symm
  have hfam : inetWord ++ x6 = if family = 10 then inet6Word else inetWord := by
    rw [hx6]; split <;> rfl
  generalize hfw : inetWord ++ x6 = fam at hfam
  have hfp : Plain fam := by
    rw [hfam]
    split <;> exact ⟨by decide, by decide, by decide⟩
  obtain ⟨w1, w2, w3, w4, w5, w6, hw⟩ : ∃ w1 w2 w3 w4 w5 w6, createWords = [w1, w2, w3, w4, w5, w6] := ⟨_, _, _, _, _, _, rfl⟩
  have hcw : createWords = [[99, 114, 101, 97, 116, 101], [104, 97, 115, 104, 58, 110, 101, 116], [102, 97, 109, 105, 108, 121],
    [104, 97, 115, 104, 115, 105, 122, 101], [109, 97, 120, 101, 108, 101, 109], [45, 101, 120, 105, 115, 116]] := rfl
  have h1 : ipsetHeader expo tag family k ++ rest =
      ([99, 114, 101, 97, 116, 101] ++ 32 :: (tag ++ 32 :: ([104, 97, 115, 104, 58, 110, 101, 116] ++ 32 :: ([102, 97, 109, 105, 108, 121] ++ 32 ::
        (fam ++ 32 :: ([104, 97, 115, 104, 115, 105, 122, 101] ++ 32 :: (pad8 d ++ 32 :: ([109, 97, 120, 101, 108, 101, 109] ++ 32 ::
          ([49, 48, 52, 56, 53, 55, 54] ++ 32 :: [45, 101, 120, 105, 115, 116]))))))))) ++ 10 :: ((flushWord ++ 32 :: tag) ++ 10 :: rest) := by
    rw [ipsetHeader, hd, hf, ← hfw]
    simp only [strCreate, strFamily, strHashsize, strMaxelem, strFlush, flushWord, inetWord, List.append_assoc, List.cons_append, List.nil_append]
  have hpad10 : (10 : Byte) ∉ pad8 d := by
    unfold pad8
    rw [List.mem_append, not_or]
    refine ⟨?_, p1.2.1⟩
    intro hm
    exact absurd (List.eq_of_mem_replicate hm) (by decide)
  have hn1 : (10 : Byte) ∉ ([99, 114, 101, 97, 116, 101] ++ 32 :: (tag ++ 32 :: ([104, 97, 115, 104, 58, 110, 101, 116] ++ 32 :: ([102, 97, 109, 105, 108, 121] ++ 32 ::
        (fam ++ 32 :: ([104, 97, 115, 104, 115, 105, 122, 101] ++ 32 :: (pad8 d ++ 32 :: ([109, 97, 120, 101, 108, 101, 109] ++ 32 ::
          ([49, 48, 52, 56, 53, 55, 54] ++ 32 :: [45, 101, 120, 105, 115, 116]))))))))  : CStr) := by
    rw [List.mem_append, not_or]
    refine ⟨by decide, ?_⟩
    rw [List.mem_cons, not_or]
    refine ⟨by decide, ?_⟩
    rw [List.mem_append, not_or]
    refine ⟨ht.2.1, ?_⟩
    rw [List.mem_cons, not_or]
    refine ⟨by decide, ?_⟩
    rw [List.mem_append, not_or]
    refine ⟨by decide, ?_⟩
    rw [List.mem_cons, not_or]
    refine ⟨by decide, ?_⟩
    rw [List.mem_append, not_or]
    refine ⟨by decide, ?_⟩
    rw [List.mem_cons, not_or]
    refine ⟨by decide, ?_⟩
    rw [List.mem_append, not_or]
    refine ⟨hfp.2.1, ?_⟩
    rw [List.mem_cons, not_or]
    refine ⟨by decide, ?_⟩
    rw [List.mem_append, not_or]
    refine ⟨by decide, ?_⟩
    rw [List.mem_cons, not_or]
    refine ⟨by decide, ?_⟩
    rw [List.mem_append, not_or]
    refine ⟨hpad10, by decide⟩
  have hn2 : (10 : Byte) ∉ flushWord ++ 32 :: tag := by
    rw [List.mem_append, not_or, List.mem_cons, not_or]
    exact ⟨by decide, by decide, ht.2.1⟩
  have hpad : fields 32 (pad8 d) = [d] := by
    unfold pad8
    rw [fields_spaces, fields_single p1.2.2 p1.1]
  have hw1 : fields 32 ([99, 114, 101, 97, 116, 101] ++ 32 :: (tag ++ 32 :: ([104, 97, 115, 104, 58, 110, 101, 116] ++ 32 :: ([102, 97, 109, 105, 108, 121] ++ 32 ::
        (fam ++ 32 :: ([104, 97, 115, 104, 115, 105, 122, 101] ++ 32 :: (pad8 d ++ 32 :: ([109, 97, 120, 101, 108, 101, 109] ++ 32 ::
          ([49, 48, 52, 56, 53, 55, 54] ++ 32 :: [45, 101, 120, 105, 115, 116]))))))))) =
      [[99, 114, 101, 97, 116, 101], tag, [104, 97, 115, 104, 58, 110, 101, 116], [102, 97, 109, 105, 108, 121], fam,
        [104, 97, 115, 104, 115, 105, 122, 101], d, [109, 97, 120, 101, 108, 101, 109], [49, 48, 52, 56, 53, 55, 54], [45, 101, 120, 105, 115, 116]] := by
    rw [fields_line (by decide) (by decide), fields_line ht.2.2 ht.1, fields_line (by decide) (by decide), fields_line (by decide) (by decide),
      fields_line hfp.2.2 hfp.1, fields_line (by decide) (by decide), fields_append, hpad, fields_line (by decide) (by decide),
      fields_line (by decide) (by decide), fields_single (by decide) (by decide)]
    rfl
  have hw2 : fields 32 (flushWord ++ 32 :: tag) = [flushWord, tag] := by
    rw [fields_line (by decide) (by decide), fields_single ht.2.2 ht.1]
  have hnum : numberOf [49, 48, 52, 56, 53, 55, 54] = some 1048576 := by decide
  rw [h1, fields_line hn1 (by simp), fields_line hn2 (by simp [flushWord]), ipsetLines, ipsetLine, hw1]
  simp only []
  rw [if_pos hcw.symm, ipsetCreate]
  have hflush : ∀ S' : List IpSet, S'.any (·.name == tag) = true → ipsetLines S' ((flushWord ++ 32 :: tag) :: fields 10 rest) =
      ipsetLines (S'.map fun x => if x.name = tag then { x with elems := [] } else x) (fields 10 rest) := by
    intro S' h'
    rw [ipsetLines, ipsetLine, hw2]
    simp only [if_true]
    rw [ipsetFlush, if_pos h']
  by_cases hany : S.any (·.name == tag) = true
  · rw [if_pos hany, if_pos hany]
    exact hflush S hany
  · rw [if_neg hany, if_neg hany, if_neg, p2, hnum]
    · simp only []
      rw [hflush _ (by simp), map_last (name := tag) ?_ rfl (fun x => { x with elems := [] })]
      · congr 4
        rw [hfam]
        split <;> rename_i h10 <;> simp only [h10] <;> decide
      · intro y hy hn
        exact hany (List.any_eq_true.mpr ⟨y, hy, by simpa using hn⟩)
    · rw [hfam]
      split <;> simp

/-- One set is read. -/
theorem ipset_block {expo : Nat → Nat} {tag : CStr} (ht : Plain tag) {family k : Nat} (hh : hashsize expo k < 10 ^ 8) {S : List IpSet}
    (hS : ∀ y ∈ S, y.name ≠ tag) {nets : List CStr} (hp : ∀ s ∈ nets, Plain s ∧ s.contains 58 = decide (family = 10)) (hn : nets.Nodup) (rest : Bytes) :
    ipsetLines S (fields 10 (ipsetText expo tag family k nets ++ rest)) =
      if nets.length ≤ 1048576 then ipsetLines (S ++ [⟨tag, decide (family = 10), 1048576, nets⟩]) (fields 10 rest) else none := by
  unfold ipsetText
  rw [List.append_assoc, ipset_header ht hh, if_neg, ipset_adds ht hS rest nets [] hp (by simpa using hn)]
  · simp only [List.length_nil, Nat.zero_add, List.nil_append]
    by_cases h : nets.length ≤ 1048576
    · rw [if_pos h, if_pos (Or.inl h)]
    · rw [if_neg h, if_neg]
      rintro (h' | rfl)
      · exact h h'
      · simp at h
  · intro h
    obtain ⟨y, hy, hyn⟩ := List.any_eq_true.mp h
    exact hS y hy (by simpa using hyn)

end Loc
