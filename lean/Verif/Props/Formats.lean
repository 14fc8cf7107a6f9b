import Verif.Lemmas.Formats
/-
C53: the output of the export tool denotes exactly the networks that were written to it.
-/
namespace Loc.Props
open Loc Loc.Spec

/-- The texts of the networks of outputs. -/
def texts (l : List (CStr × List Network)) : List (CStr × List CStr) := l.map fun s => (s.1, s.2.map netText)

/-- A network of the family of the output (10: IPv6). -/
def InFamily (family : Nat) (n : Network) : Prop := n.family = .inet6 ↔ family = 10

/-! ### Any format -/

theorem writerRun_end {fmt : Format} {expo : Nat → Nat} {tag : CStr} {family : Nat} {nets : List CStr} {f g : OutFile} (hf : AtEnd f)
    (hs : writerStart fmt expo tag family f = .ok (filePut f g.content)) :
    ∃ f', AtEnd f' ∧ f'.kind = f.kind ∧ f'.content = f.content ++ (g.content ++ nets.flatMap (networkLine fmt tag)) ∧
      writerRun fmt expo tag family nets f = .ok (writerFinish fmt expo tag family nets.length f') := by
  obtain ⟨a1, a2, a3⟩ := filePut_end hf g.content
  obtain ⟨b1, b2, b3⟩ := foldl_put a3 (networkLine fmt tag) nets
  refine ⟨_, b3, by rw [b2, a2], by rw [b1, a1, List.append_assoc], ?_⟩
  unfold writerRun
  rw [hs]

theorem list_writer {expo : Nat → Nat} {tag : CStr} {family : Nat} {nets : List CStr} {f : OutFile} (hf : AtEnd f) :
    ∃ f', AtEnd f' ∧ f'.kind = f.kind ∧ f'.content = f.content ++ nets.flatMap (· ++ [10]) ∧ writerRun .list expo tag family nets f = .ok f' := by
  obtain ⟨b1, b2, b3⟩ := foldl_put hf (networkLine .list tag) nets
  refine ⟨_, b3, b2, b1, ?_⟩
  unfold writerRun writerStart writerFinish
  rfl

theorem nft_writer {expo : Nat → Nat} {tag : CStr} {family : Nat} {nets : List CStr} {f : OutFile} (hf : AtEnd f) :
    ∃ f', AtEnd f' ∧ f'.kind = f.kind ∧
      f'.content = f.content ++ (strDefine ++ tag ++ strOpen ++ nets.flatMap (networkLine .nftables tag) ++ strClose) ∧
      writerRun .nftables expo tag family nets f = .ok f' := by
  obtain ⟨f', a1, a2, a3, a4⟩ := writerRun_end (expo := expo) (family := family) (tag := tag) (nets := nets) (fmt := .nftables)
    (g := ⟨.pipe, strDefine ++ tag ++ strOpen, 0⟩) hf rfl
  obtain ⟨b1, b2, b3⟩ := filePut_end a1 strClose
  refine ⟨_, b3, by rw [b2, a2], ?_, a4⟩
  rw [b1, a3]
  simp only [List.append_assoc]

/-! ### The plain list -/

theorem list_lines {nets : List CStr} (h : ∀ s ∈ nets, Plain s) (rest : Bytes) :
    fields 10 (nets.flatMap (· ++ [10]) ++ rest) = nets ++ fields 10 rest := by
  induction nets with
  | nil => rfl
  | cons s nets ih =>
    obtain ⟨h1, h2, -⟩ := h s List.mem_cons_self
    rw [List.flatMap_cons, List.append_assoc, List.append_assoc, List.singleton_append, fields_line h2 h1,
      ih (fun t ht => h t (List.mem_cons_of_mem _ ht))]
    rfl

theorem list_run (expo : Nat → Nat) (family : Nat) (l : List (CStr × List CStr)) : ∀ f : OutFile, AtEnd f →
    ∃ f', listRunOn .list expo family l f = .ok f' ∧ f'.content = f.content ++ l.flatMap (fun s => s.2.flatMap (· ++ [10])) := by
  induction l with
  | nil => intro f _; exact ⟨f, rfl, by simp⟩
  | cons s l ih =>
    intro f hf
    obtain ⟨f1, a1, -, a3, a4⟩ := list_writer (expo := expo) (tag := makeTag s.1 family) (family := family) (nets := s.2) hf
    obtain ⟨f2, b1, b2⟩ := ih f1 a1
    refine ⟨f2, ?_, by rw [b2, a3, List.append_assoc, List.flatMap_cons]⟩
    obtain ⟨name, nets⟩ := s
    rw [listRunOn, a4]
    exact b1

/-- C53 for the format `list`, whatever standard output is: one line for every network, in the order of the outputs. -/
theorem list_format (expo : Nat → Nat) (family : Nat) {l : List (CStr × List Network)} (hb : ∀ s ∈ l, ∀ n ∈ s.2, Block n) (kind : FileKind) :
    ∃ f, listRunOn .list expo family (texts l) (newFile kind) = .ok f ∧
      fields 10 f.content = (l.flatMap (·.2)).map netText ∧ ∀ n ∈ l.flatMap (·.2), Shows (netText n) n := by
  obtain ⟨f, h1, h2⟩ := list_run expo family (texts l) (newFile kind) (fun _ => rfl)
  refine ⟨f, h1, ?_, ?_⟩
  · rw [h2]
    show fields 10 ([] ++ _) = _
    rw [List.nil_append]
    clear h1 h2 f
    induction l with
    | nil => rfl
    | cons s l ih =>
      have := ih (fun t ht => hb t (List.mem_cons_of_mem _ ht))
      unfold texts at this ⊢
      rw [List.map_cons, List.flatMap_cons, list_lines, this, List.flatMap_cons, List.map_append]
      intro t ht
      obtain ⟨n, hn, rfl⟩ := List.mem_map.mp ht
      exact (netText_plain (hb s List.mem_cons_self n hn)).1
  · intro n hn
    obtain ⟨s, hs, hn⟩ := List.mem_flatMap.mp hn
    exact netText_shows (hb s hs n hn)

/-! ### nftables -/

theorem nft_elems {nets : List CStr} (h : ∀ s ∈ nets, Plain s) (tag name : CStr) (rest : Bytes) : ∀ els : List CStr,
    nftLines (some (name, els)) (fields 10 (nets.flatMap (networkLine .nftables tag) ++ rest)) = nftLines (some (name, els ++ nets)) (fields 10 rest) := by
  induction nets with
  | nil => intro els; simp
  | cons s nets ih =>
    intro els
    obtain ⟨h1, h2, -⟩ := h s List.mem_cons_self
    have hl : (networkLine .nftables tag s ++ (nets.flatMap (networkLine .nftables tag) ++ rest)) =
        (9 :: (s ++ [44])) ++ 10 :: (nets.flatMap (networkLine .nftables tag) ++ rest) := by
      simp [networkLine]
    have h10 : (10 : Byte) ∉ 9 :: (s ++ [44]) := by
      simp only [List.mem_cons, List.mem_append, not_or]
      exact ⟨by decide, h2, by decide⟩
    rw [List.flatMap_cons, List.append_assoc, hl, fields_line h10 (by simp), nftLines, if_neg (by simp [closeWord])]
    have he : nftElem (9 :: (s ++ [44])) = some s := by
      unfold nftElem
      simp
    rw [he]
    simp only []
    rw [ih (fun t ht => h t (List.mem_cons_of_mem _ ht)), List.append_assoc]
    rfl

theorem nft_section {tag : CStr} (ht : Plain tag) {nets : List CStr} (h : ∀ s ∈ nets, Plain s) (rest : Bytes) :
    nftLines none (fields 10 (strDefine ++ tag ++ strOpen ++ nets.flatMap (networkLine .nftables tag) ++ strClose ++ rest)) =
      (nftLines none (fields 10 rest)).map ((tag, nets) :: ·) := by
  have h1 : strDefine ++ tag ++ strOpen ++ nets.flatMap (networkLine .nftables tag) ++ strClose ++ rest =
      ([100, 101, 102, 105, 110, 101] ++ 32 :: (tag ++ 32 :: ([61] ++ 32 :: [123]))) ++ 10 ::
        (nets.flatMap (networkLine .nftables tag) ++ (closeWord ++ 10 :: rest)) := by
    simp [strDefine, strOpen, strClose, closeWord]
  have h10 : (10 : Byte) ∉ ([100, 101, 102, 105, 110, 101] ++ 32 :: (tag ++ 32 :: ([61] ++ 32 :: [123])) : CStr) := by
    rw [List.mem_append, not_or]
    refine ⟨by decide, ?_⟩
    rw [List.mem_cons, not_or]
    refine ⟨by decide, ?_⟩
    rw [List.mem_append, not_or]
    exact ⟨ht.2.1, by decide⟩
  have hw : fields 32 ([100, 101, 102, 105, 110, 101] ++ 32 :: (tag ++ 32 :: ([61] ++ 32 :: [123])) : CStr) =
      [[100, 101, 102, 105, 110, 101], tag, [61], [123]] := by
    rw [fields_line (by decide) (by decide), fields_line ht.2.2 ht.1, fields_line (by decide) (by decide), fields_single (by decide) (by decide)]
  rw [h1, fields_line h10 (by simp), nftLines, hw]
  simp only []
  rw [if_pos (show ([[100, 101, 102, 105, 110, 101], [61], [123]] : List CStr) = defineWords from rfl), nft_elems h, fields_line (by decide) (by decide), nftLines, if_pos rfl]
  rfl

theorem nft_run (expo : Nat → Nat) (family : Nat) (l : List (CStr × List CStr)) (h : ∀ s ∈ l, Plain (makeTag s.1 family) ∧ ∀ t ∈ s.2, Plain t) :
    ∀ f : OutFile, AtEnd f → ∃ f' text, listRunOn .nftables expo family l f = .ok f' ∧ f'.content = f.content ++ text ∧
      nftRead text = some (l.map fun s => (makeTag s.1 family, s.2)) := by
  induction l with
  | nil => intro f _; exact ⟨f, [], rfl, by simp, rfl⟩
  | cons s l ih =>
    intro f hf
    obtain ⟨f1, a1, -, a3, a4⟩ := nft_writer (expo := expo) (tag := makeTag s.1 family) (family := family) (nets := s.2) hf
    obtain ⟨f2, text, b1, b2, b3⟩ := ih (fun t ht => h t (List.mem_cons_of_mem _ ht)) f1 a1
    obtain ⟨name, nets⟩ := s
    refine ⟨f2, _, ?_, by rw [b2, a3, List.append_assoc], ?_⟩
    · rw [listRunOn, a4]
      exact b1
    · obtain ⟨p1, p2⟩ := h _ List.mem_cons_self
      unfold nftRead at b3 ⊢
      rw [nft_section p1 p2, b3]
      rfl

theorem tag_plain {name : CStr} (h : Plain name) (family : Nat) : Plain (makeTag name family) := by
  have h2 : ∀ x : Byte, x ≠ 118 → x ≠ 54 → x ≠ 52 → x ≠ 63 → x ∉ name → x ∉ makeTag name family := by
    intro x x1 x2 x3 x4 hn hm
    unfold makeTag at hm
    simp only [List.mem_append, List.mem_cons, List.not_mem_nil, or_false] at hm
    rcases hm with hm | hm | hm
    · exact hn hm
    · exact x1 hm
    · split at hm
      · exact x2 hm
      · split at hm
        · exact x3 hm
        · exact x4 hm
  exact ⟨by simp [makeTag], h2 10 (by decide) (by decide) (by decide) (by decide) h.2.1, h2 32 (by decide) (by decide) (by decide) (by decide) h.2.2⟩

theorem texts_plain {l : List (CStr × List Network)} (hb : ∀ s ∈ l, ∀ n ∈ s.2, Block n) (hn : ∀ s ∈ l, Plain s.1) (family : Nat) :
    ∀ s ∈ texts l, Plain (makeTag s.1 family) ∧ ∀ t ∈ s.2, Plain t := by
  intro s hs
  obtain ⟨x, hx, rfl⟩ := List.mem_map.mp hs
  refine ⟨tag_plain (hn x hx) family, fun t ht => ?_⟩
  obtain ⟨n, h, rfl⟩ := List.mem_map.mp ht
  exact (netText_plain (hb x hx n h)).1

/-- C53 for the format `nftables`, whatever standard output is: the definitions contain exactly the networks. -/
theorem nftables_format (expo : Nat → Nat) (family : Nat) {l : List (CStr × List Network)} (hb : ∀ s ∈ l, ∀ n ∈ s.2, Block n)
    (hn : ∀ s ∈ l, Plain s.1) (kind : FileKind) :
    ∃ f, listRunOn .nftables expo family (texts l) (newFile kind) = .ok f ∧
      nftRead f.content = some (l.map fun s => (makeTag s.1 family, s.2.map netText)) ∧ ∀ n ∈ l.flatMap (·.2), Shows (netText n) n := by
  obtain ⟨f, text, h1, h2, h3⟩ := nft_run expo family (texts l) (texts_plain hb hn family) (newFile kind) (fun _ => rfl)
  refine ⟨f, h1, ?_, ?_⟩
  · rw [h2]
    show nftRead ([] ++ text) = _
    rw [List.nil_append, h3]
    unfold texts
    rw [List.map_map]
    rfl
  · intro n hn
    obtain ⟨s, hs, hn⟩ := List.mem_flatMap.mp hn
    exact netText_shows (hb s hs n hn)

/-! ### ipset -/

theorem ipset_raises {expo : Nat → Nat} {tag : CStr} {nets : List CStr} {f : OutFile} : writerRun .ipset expo tag 0 nets f = .raised := rfl

/-- One writer that writes to a pipe or the terminal: the header is not written again. -/
theorem ipset_pipe {expo : Nat → Nat} {tag : CStr} {family : Nat} (hf : family ≠ 0) {nets : List CStr} {f : OutFile} (hk : f.kind = .pipe) :
    ∃ f', f'.kind = .pipe ∧ f'.content = f.content ++ ipsetText expo tag family 0 nets ∧ writerRun .ipset expo tag family nets f = .ok f' := by
  obtain ⟨f', a1, a2, a3, a4⟩ := writerRun_end (expo := expo) (family := family) (tag := tag) (nets := nets) (fmt := .ipset)
    (g := ⟨.pipe, ipsetHeader expo tag family 0, 0⟩) (f := f) (fun h => by rw [hk] at h; cases h) (by unfold writerStart; rw [if_neg hf])
  refine ⟨f', a2.trans hk, a3, ?_⟩
  rw [a4]
  unfold writerFinish fileRewind
  simp only [a2, hk]

/-- One writer that writes to a new file: the header is written again, over itself. -/
theorem ipset_file {expo : Nat → Nat} {tag : CStr} {family : Nat} (hf : family ≠ 0) {nets : List CStr} (h0 : hashsize expo 0 < 10 ^ 8)
    (hh : hashsize expo nets.length < 10 ^ 8) :
    ∃ f', f'.content = ipsetText expo tag family nets.length nets ∧ writerRun .ipset expo tag family nets (newFile .file) = .ok f' := by
  obtain ⟨f', a1, a2, a3, a4⟩ := writerRun_end (expo := expo) (family := family) (tag := tag) (nets := nets) (fmt := .ipset)
    (g := ⟨.pipe, ipsetHeader expo tag family 0, 0⟩) (f := newFile .file) (fun _ => rfl) (by unfold writerStart; rw [if_neg hf])
  refine ⟨_, ?_, a4⟩
  have hk : f'.kind = .file := a2
  have hl : (ipsetHeader expo tag family nets.length).length = (ipsetHeader expo tag family 0).length := by
    unfold ipsetHeader
    simp only [List.length_append, (hash_small h0).2.2, (hash_small hh).2.2]
  have hc : f'.content = ipsetHeader expo tag family 0 ++ nets.flatMap (networkLine .ipset tag) := a3
  unfold writerFinish fileRewind filePut
  simp only [hk, hc, List.take_zero, List.nil_append, Nat.zero_add]
  rw [hl, List.drop_left]
  rfl

/-- Distinct blocks have distinct texts. -/
theorem texts_nodup {L : List Network} (hb : ∀ n ∈ L, Block n) (ha : Ascending L) : (L.map netText).Nodup := by
  induction L with
  | nil => exact List.nodup_nil
  | cons n L ih =>
    unfold Ascending at ha
    rw [List.pairwise_cons] at ha
    rw [List.map_cons, List.nodup_cons]
    refine ⟨?_, ih (fun m hm => hb m (List.mem_cons_of_mem _ hm)) ha.2⟩
    intro hm
    obtain ⟨m, hm, he⟩ := List.mem_map.mp hm
    obtain ⟨e1, e2⟩ := netText_inj (hb m (List.mem_cons_of_mem _ hm)) (hb n List.mem_cons_self) he
    have := ha.1 m hm
    unfold Before at this
    rw [e1] at this
    omega

theorem family_texts {family : Nat} {L : List Network} (hb : ∀ n ∈ L, Block n) (hfam : ∀ n ∈ L, InFamily family n) :
    ∀ s ∈ L.map netText, Plain s ∧ s.contains 58 = decide (family = 10) := by
  intro s hs
  obtain ⟨n, hn, rfl⟩ := List.mem_map.mp hs
  obtain ⟨h1, h2⟩ := netText_plain (hb n hn)
  refine ⟨h1, ?_⟩
  rw [h2]
  exact decide_eq_decide.mpr (hfam n hn)

/-- C53 for the format `ipset` and one output in a new file or written to a pipe: `ipset restore` makes one set with exactly
    the networks.  Missing: outputs that are too large (`ipset_violated_large`), files opened for appending
    (`ipset_violated_append`), more than one output (`ipset_outputs_partial`, `ipset_violated_file`). -/
theorem ipset_format_partial {expo : Nat → Nat} {name : CStr} (hn : Plain name) {family : Nat} (hf : family ≠ 0) {L : List Network}
    (hb : ∀ n ∈ L, Block n) (ha : Ascending L) (hfam : ∀ n ∈ L, InFamily family n) (hl : L.length ≤ 1048576)
    (hh : hashsize expo L.length < 10 ^ 8) {kind : FileKind} (hk : kind ≠ .append) :
    ∃ f, writerRun .ipset expo (makeTag name family) family (L.map netText) (newFile kind) = .ok f ∧
      ipsetRestore f.content = some [⟨makeTag name family, decide (family = 10), 1048576, L.map netText⟩] ∧ ∀ n ∈ L, Shows (netText n) n := by
  have h0 : hashsize expo 0 < 10 ^ 8 := by unfold hashsize; rw [if_pos rfl]; decide
  have hlen : (L.map netText).length = L.length := List.length_map ..
  have key : ∀ k, hashsize expo k < 10 ^ 8 → ipsetRestore (ipsetText expo (makeTag name family) family k (L.map netText)) =
      some [⟨makeTag name family, decide (family = 10), 1048576, L.map netText⟩] := by
    intro k hk
    have := ipset_block (tag_plain hn family) (family := family) hk (S := []) (by simp) (family_texts hb hfam) (texts_nodup hb ha) []
    rw [List.append_nil, if_pos (by rw [hlen]; exact hl)] at this
    exact this
  cases kind with
  | append => exact absurd rfl hk
  | file =>
    obtain ⟨f, h1, h2⟩ := ipset_file (expo := expo) (tag := makeTag name family) hf (nets := L.map netText) h0 (by rw [hlen]; exact hh)
    exact ⟨f, h2, by rw [h1]; exact key _ (by rw [hlen]; exact hh), fun n hn => netText_shows (hb n hn)⟩
  | pipe =>
    obtain ⟨f, -, h1, h2⟩ := ipset_pipe (expo := expo) (tag := makeTag name family) hf (nets := L.map netText) (f := newFile .pipe) rfl
    refine ⟨f, h2, ?_, fun n hn => netText_shows (hb n hn)⟩
    rw [h1]
    exact key 0 h0

/-- Sets one after the other. -/
theorem ipset_blocks {expo : Nat → Nat} (l : List (Nat × CStr × Nat × List CStr)) : ∀ S : List IpSet,
    (∀ s ∈ l, Plain s.2.1 ∧ hashsize expo s.2.2.1 < 10 ^ 8 ∧ (∀ t ∈ s.2.2.2, Plain t ∧ t.contains 58 = decide (s.1 = 10)) ∧ s.2.2.2.Nodup ∧
      s.2.2.2.length ≤ 1048576) → (S.map (·.name) ++ l.map (·.2.1)).Nodup →
    ipsetLines S (fields 10 (l.flatMap fun s => ipsetText expo s.2.1 s.1 s.2.2.1 s.2.2.2)) =
      some (S ++ l.map fun s => ⟨s.2.1, decide (s.1 = 10), 1048576, s.2.2.2⟩) := by
  induction l with
  | nil =>
    intro S _ _
    simp only [List.flatMap_nil, List.map_nil, List.append_nil]
    rfl
  | cons s l ih =>
    intro S h hn
    obtain ⟨h1, h2, h3, h4, h5⟩ := h s List.mem_cons_self
    rw [List.map_cons] at hn
    rw [List.flatMap_cons, ipset_block h1 h2 ?_ h3 h4, if_pos h5, ih]
    · simp
    · exact fun t ht => h t (List.mem_cons_of_mem _ ht)
    · simpa using hn
    · intro y hy he
      rw [List.nodup_append] at hn
      exact hn.2.2 _ (List.mem_map.mpr ⟨y, hy, rfl⟩) _ List.mem_cons_self he

theorem makeTag_inj {m n : CStr} {family family' : Nat} (hf : family = 2 ∨ family = 10) (hf' : family' = 2 ∨ family' = 10)
    (h : makeTag m family = makeTag n family') : m = n ∧ family = family' := by
  unfold makeTag at h
  obtain ⟨h1, h2⟩ := List.append_inj' h rfl
  refine ⟨h1, ?_⟩
  rcases hf with rfl | rfl <;> rcases hf' with rfl | rfl <;> first | rfl | (revert h2; decide)

/-- The networks of an output in the format `ipset` that can be loaded. -/
structure Loadable (expo : Nat → Nat) (family : Nat) (L : List Network) : Prop where
  fam : family = 2 ∨ family = 10
  blocks : ∀ n ∈ L, Block n
  ascending : Ascending L
  ofFamily : ∀ n ∈ L, InFamily family n
  size : L.length ≤ 1048576
  hash : hashsize expo L.length < 10 ^ 8

theorem print_blocks {expo : Nat → Nat} (l : List (Nat × CStr × List Network)) (h : ∀ s ∈ l, Loadable expo s.1 s.2.2) :
    exportPrint .ipset expo (l.map fun s => (s.1, s.2.1, s.2.2.map netText)) =
      .ok ((l.map fun s => (s.1, makeTag s.2.1 s.1, s.2.2.length, s.2.2.map netText)).flatMap fun s => ipsetText expo s.2.1 s.1 s.2.2.1 s.2.2.2) := by
  induction l with
  | nil => rfl
  | cons s l ih =>
    have hs := h s List.mem_cons_self
    have h0 : hashsize expo 0 < 10 ^ 8 := by unfold hashsize; rw [if_pos rfl]; decide
    have hlen : (s.2.2.map netText).length = s.2.2.length := List.length_map ..
    obtain ⟨f, h1, h2⟩ := ipset_file (expo := expo) (tag := makeTag s.2.1 s.1) (family := s.1) (by rcases hs.fam with h | h <;> rw [h] <;> decide)
      (nets := s.2.2.map netText) h0 (by rw [hlen]; exact hs.hash)
    rw [List.map_cons, exportPrint, h2, ih (fun t ht => h t (List.mem_cons_of_mem _ ht)), List.map_cons, List.flatMap_cons]
    simp only [h1, hlen]

/-- C53 for `location export` in the format `ipset` without a directory: every output is a set with exactly its networks.
    Missing: sets that are too large. -/
theorem export_print_partial {expo : Nat → Nat} {l : List (Nat × CStr × List Network)} (h : ∀ s ∈ l, Loadable expo s.1 s.2.2)
    (hp : ∀ s ∈ l, Plain s.2.1) (hd : (l.map fun s => (s.1, s.2.1)).Nodup) :
    ∃ out, exportPrint .ipset expo (l.map fun s => (s.1, s.2.1, s.2.2.map netText)) = .ok out ∧
      ipsetRestore out = some (l.map fun s => ⟨makeTag s.2.1 s.1, decide (s.1 = 10), 1048576, s.2.2.map netText⟩) ∧
      ∀ s ∈ l, ∀ n ∈ s.2.2, Shows (netText n) n := by
  refine ⟨_, print_blocks l h, ?_, fun s hs n hn => netText_shows ((h s hs).blocks n hn)⟩
  unfold ipsetRestore
  rw [ipset_blocks]
  · simp only [List.nil_append, List.map_map]
    rfl
  · intro s hs
    obtain ⟨x, hx, rfl⟩ := List.mem_map.mp hs
    have hl := h x hx
    exact ⟨tag_plain (hp x hx) _, hl.hash, family_texts hl.blocks hl.ofFamily, texts_nodup hl.blocks hl.ascending, by simpa using hl.size⟩
  · simp only [List.map_nil, List.nil_append, List.map_map]
    clear hp
    induction l with
    | nil => exact List.nodup_nil
    | cons s l ih =>
      rw [List.map_cons, List.nodup_cons] at hd ⊢
      refine ⟨fun hm => hd.1 ?_, ih (fun t ht => h t (List.mem_cons_of_mem _ ht)) hd.2⟩
      obtain ⟨t, ht, he⟩ := List.mem_map.mp hm
      obtain ⟨e1, e2⟩ := makeTag_inj (h t (List.mem_cons_of_mem _ ht)).fam (h s List.mem_cons_self).fam he
      exact List.mem_map.mpr ⟨t, ht, by rw [e1, e2]⟩

/-- C53 for several outputs in the format `ipset` (`location list-networks-by-as`, `…-by-cc`) on a pipe or a terminal.
    Missing: standard output redirected to a file (`ipset_violated_file`, `ipset_violated_append`), sets that are too
    large. -/
theorem ipset_outputs_partial {expo : Nat → Nat} {family : Nat} {l : List (CStr × List Network)} (h : ∀ s ∈ l, Loadable expo family s.2)
    (hp : ∀ s ∈ l, Plain s.1) (hd : (l.map (·.1)).Nodup) (hf : family ≠ 0) :
    ∃ f, listRunOn .ipset expo family (texts l) (newFile .pipe) = .ok f ∧
      ipsetRestore f.content = some (l.map fun s => ⟨makeTag s.1 family, decide (family = 10), 1048576, s.2.map netText⟩) ∧
      ∀ s ∈ l, ∀ n ∈ s.2, Shows (netText n) n := by
  have run : ∀ (l : List (CStr × List CStr)) (f : OutFile), f.kind = .pipe → ∃ f', listRunOn .ipset expo family l f = .ok f' ∧
      f'.content = f.content ++ (l.map fun s => (family, makeTag s.1 family, 0, s.2)).flatMap fun s => ipsetText expo s.2.1 s.1 s.2.2.1 s.2.2.2 := by
    intro l
    induction l with
    | nil => intro f _; exact ⟨f, rfl, by simp⟩
    | cons s l ih =>
      intro f hk
      obtain ⟨f1, a1, a2, a3⟩ := ipset_pipe (expo := expo) (tag := makeTag s.1 family) hf (nets := s.2) hk
      obtain ⟨f2, b1, b2⟩ := ih f1 a1
      obtain ⟨name, nets⟩ := s
      refine ⟨f2, ?_, by rw [b2, a2, List.append_assoc, List.map_cons, List.flatMap_cons]⟩
      rw [listRunOn, a3]
      exact b1
  obtain ⟨f, h1, h2⟩ := run (texts l) (newFile .pipe) rfl
  refine ⟨f, h1, ?_, fun s hs n hn => netText_shows ((h s hs).blocks n hn)⟩
  rw [h2]
  show ipsetLines [] (fields 10 ([] ++ _)) = _
  rw [List.nil_append, ipset_blocks]
  · unfold texts
    simp only [List.nil_append, List.map_map]
    rfl
  · intro s hs
    obtain ⟨x, hx, rfl⟩ := List.mem_map.mp hs
    obtain ⟨y, hy, rfl⟩ := List.mem_map.mp hx
    have hl := h y hy
    have h0 : hashsize expo 0 < 10 ^ 8 := by unfold hashsize; rw [if_pos rfl]; decide
    exact ⟨tag_plain (hp y hy) _, h0, family_texts hl.blocks hl.ofFamily, texts_nodup hl.blocks hl.ascending, by simpa using hl.size⟩
  · unfold texts
    simp only [List.map_nil, List.nil_append, List.map_map]
    clear h1 h2 hp
    induction l with
    | nil => exact List.nodup_nil
    | cons s l ih =>
      rw [List.map_cons, List.nodup_cons] at hd ⊢
      refine ⟨fun hm => hd.1 ?_, ih (fun t ht => h t (List.mem_cons_of_mem _ ht)) hd.2⟩
      obtain ⟨t, ht, he⟩ := List.mem_map.mp hm
      have hfam := (h s List.mem_cons_self).fam
      exact List.mem_map.mpr ⟨t, ht, (makeTag_inj hfam hfam he).1⟩

/-! ### Where it does not hold -/

/-- More than 1048576 networks cannot be loaded. -/
theorem ipset_violated_large {expo : Nat → Nat} {name : CStr} (hn : Plain name) {family : Nat} (hf : family ≠ 0) {L : List Network}
    (hb : ∀ n ∈ L, Block n) (ha : Ascending L) (hfam : ∀ n ∈ L, InFamily family n) (hl : 1048576 < L.length)
    (hh : hashsize expo L.length < 10 ^ 8) :
    ∃ f, writerRun .ipset expo (makeTag name family) family (L.map netText) (newFile .file) = .ok f ∧ ipsetRestore f.content = none := by
  have h0 : hashsize expo 0 < 10 ^ 8 := by unfold hashsize; rw [if_pos rfl]; decide
  have hlen : (L.map netText).length = L.length := List.length_map ..
  obtain ⟨f, h1, h2⟩ := ipset_file (expo := expo) (tag := makeTag name family) hf (nets := L.map netText) h0 (by rw [hlen]; exact hh)
  refine ⟨f, h2, ?_⟩
  have := ipset_block (tag_plain hn family) (family := family) (expo := expo) (k := (L.map netText).length) (by rw [hlen]; exact hh) (S := []) (by simp)
    (family_texts hb hfam) (texts_nodup hb ha) []
  rw [List.append_nil, if_neg (by rw [hlen]; omega)] at this
  rw [h1]
  exact this

/-- The format `xt_geoip` cannot be used at all. -/
theorem xt_geoip_raises (expo : Nat → Nat) (tag : CStr) (family : Nat) (nets : List CStr) (f : OutFile) :
    writerRun .xtGeoip expo tag family nets f = .raised := rfl

/-- "AS1" and "AS2" -/
def as1 : CStr := [65, 83, 49]
def as2 : CStr := [65, 83, 50]

/-- The code computes the exponent 1 for one network. -/
def expo1 : Nat → Nat := fun _ => 1

/-- `location list-networks-by-as --family ipv4 --format ipset 1 2 > FILE`: the networks of the first AS are lost. -/
theorem ipset_violated_file : ∃ f, listRunOn .ipset expo1 2 (texts [(as1, [net10_8]), (as2, [net10_1_16])]) (newFile .file) = .ok f ∧
    ipsetRestore f.content = some [⟨makeTag as2 2, false, 1048576, [netText net10_1_16]⟩] := by
  refine ⟨_, rfl, ?_⟩
  decide +kernel

/-- `… >> FILE`: the set is empty after it was loaded. -/
theorem ipset_violated_append : ∃ f, listRunOn .ipset expo1 2 (texts [(as1, [net10_8])]) (newFile .append) = .ok f ∧
    ipsetRestore f.content = some [⟨makeTag as1 2, false, 1048576, []⟩] := by
  refine ⟨_, rfl, ?_⟩
  decide +kernel

/-! ### Samples -/

/-- 10.0.0.0/8 -/
example : netText net10_8 = [49, 48, 46, 48, 46, 48, 46, 48, 47, 56] := by decide +kernel

theorem loadable_sample : Loadable expo1 2 [net10_8, net10_1_16] ∧ Plain as1 :=
  ⟨⟨by decide, by decide, by unfold Ascending Before; decide, by unfold InFamily; decide, by decide, by decide⟩, by decide⟩

example : ∃ f, writerRun .ipset expo1 (makeTag as1 2) 2 [netText net10_8] (newFile .file) = .ok f ∧
    ipsetRestore f.content = some [⟨makeTag as1 2, false, 1048576, [netText net10_8]⟩] := by
  obtain ⟨f, h1, h2, -⟩ := ipset_format_partial (expo := expo1) (name := as1) (by decide) (family := 2) (by decide) (L := [net10_8]) (by decide)
    (by unfold Ascending Before; decide) (by unfold InFamily; decide) (by decide) (by decide) (kind := .file) (by decide)
  exact ⟨f, h1, h2⟩

example : ∃ f, listRunOn .nftables expo1 2 (texts [(as1, [net10_8]), (as2, [net10_1_16])]) (newFile .file) = .ok f ∧
    nftRead f.content = some [(makeTag as1 2, [netText net10_8]), (makeTag as2 2, [netText net10_1_16])] := by
  obtain ⟨f, h1, h2, -⟩ := nftables_format expo1 2 (l := [(as1, [net10_8]), (as2, [net10_1_16])]) (by decide) (by decide) .file
  exact ⟨f, h1, h2⟩

theorem hosts_sample : ∀ (k : Nat) (a : Addr), IsV4 a → value a + k ≤ 0xffffffffffff → ∃ L : List Network, L.length = k ∧ Ascending L ∧
    ∀ n ∈ L, Block n ∧ n.family = .inet ∧ value a ≤ value n.first := by
  intro k
  induction k with
  | zero => intro a _ _; exact ⟨[], rfl, List.Pairwise.nil, by simp⟩
  | succ k ih =>
    intro a ha hk
    have hv : value (addrInc a) = value a + 1 := value_addrInc_of_ne (by unfold famMax; rw [if_pos ha]; omega)
    obtain ⟨L, h1, h2, h3⟩ := ih (addrInc a) (by unfold IsV4 at ha ⊢; omega) (by omega)
    refine ⟨mk4 a a 32 :: L, by simp [h1], List.pairwise_cons.mpr ⟨fun n hn => Or.inl ?_, h2⟩, ?_⟩
    · have := (h3 n hn).2.2
      show value a < _
      omega
    · intro n hn
      rcases List.mem_cons.mp hn with rfl | hn
      · exact ⟨⟨Nat.le_refl _, Nat.mod_one _, rfl, by simp [mk4, ha]⟩, rfl, Nat.le_refl _⟩
      · obtain ⟨i1, i2, i3⟩ := h3 n hn
        exact ⟨i1, i2, by omega⟩

/-- The hypotheses of `ipset_violated_large` can be met: 1048577 hosts starting from 10.0.0.0. -/
example : ∃ L : List Network, (∀ n ∈ L, Block n) ∧ Ascending L ∧ (∀ n ∈ L, InFamily 2 n) ∧ 1048576 < L.length := by
  obtain ⟨L, h1, h2, h3⟩ := hosts_sample 1048577 (ip4 10 0 0 0) (by decide) (by decide)
  exact ⟨L, fun n hn => (h3 n hn).1, h2, fun n hn => by simp [InFamily, (h3 n hn).2.1], by omega⟩

end Loc.Props
