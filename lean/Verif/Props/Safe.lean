import Verif.Lemmas.Safe
import Verif.Props.File
/-
C18 (all calls terminate on every file), C21 (reads stay inside the file), C46 (traversals stay inside the address and
the stack).
-/
namespace Loc.Props
open Loc Loc.Spec

/-! ## Opening -/

theorem field_header (f : Bytes) (k l : Nat) (h : k + l ≤ headerSize) : field ((f.drop magicSize).take headerSize) k l = number f (8 + k) l := by
  unfold field number beVal
  rw [List.drop_take, List.take_take, List.drop_drop, Nat.min_eq_left (by omega)]
  rfl

theorem open_ok {f : Bytes} {db : Db} (h : dbOpen f = .ok db) : 4200 ≤ f.length ∧ db.file = f ∧ db.poolOff = word f 60 ∧ db.poolLen = word f 64 ∧
    db.nodeOff = word f 44 ∧ db.nodeCount = word f 48 / 12 ∧ db.vendor = word f 16 ∧ db.description = word f 20 ∧ db.license = word f 24 ∧
    db.sig1Off = 72 ∧ db.sig1Len ≤ 2048 ∧ db.sig2Off = 2120 ∧ db.sig2Len ≤ 2048 := by
  unfold dbOpen at h
  split at h
  · cases h
  unfold readHeader at h
  split at h
  · cases h
  unfold rd at h
  by_cases hl : magicSize + headerSize ≤ f.length
  · rw [if_pos hl] at h
    simp only at h
    split at h
    · cases h
    split at h
    · cases h
    split at h
    · cases h
    rename_i h1 h2 h3
    cases h
    have h4 : ¬ field ((f.drop magicSize).take headerSize) 60 2 > 2048 := h1
    have h5 : ¬ field ((f.drop magicSize).take headerSize) 62 2 > 2048 := h2
    have e : ∀ k, k + 4 ≤ headerSize → field ((f.drop magicSize).take headerSize) k 4 = word f (8 + k) := fun k hk => field_header f k 4 hk
    refine ⟨hl, rfl, e 52 (by decide), e 56 (by decide), e 36 (by decide), ?_, e 8 (by decide), e 12 (by decide), e 16 (by decide), rfl, by simpa using h4, rfl, by simpa using h5⟩
    show field ((f.drop magicSize).take headerSize) 40 4 / nodeSize = _
    rw [e 40 (by decide)]
    rfl
  · rw [if_neg hl] at h
    cases h

theorem open_inFile {f : Bytes} (hf : f.length < 2 ^ 64) (hs : StringsEnd f) {db : Db} (h : dbOpen f = .ok db) : InFile db := by
  obtain ⟨h1, h2, h3, h4, -⟩ := open_ok h
  refine ⟨by rw [h2]; omega, by rw [h2]; exact hf, ?_⟩
  rw [h2, h3, h4]
  exact hs

theorem fetchNode_word {f : Bytes} {db : Db} (h : dbOpen f = .ok db) {i : Nat} {r : NodeRec} (hr : fetchNode db i = .ok (some r)) :
    r.zero = nodeWord f i 0 ∧ r.one = nodeWord f i 1 := by
  obtain ⟨-, h2, -, -, h5, -⟩ := open_ok h
  unfold fetchNode dbObject at hr
  rw [h2, h5] at hr
  split at hr
  · cases hr
  · cases hr
  rename_i b hb
  cases hr
  split at hb
  · cases hb
  unfold rd at hb
  split at hb
  · cases hb
  rename_i b' hb'
  cases hb
  split at hb'
  · cases hb'
    have e : ∀ k, k + 4 ≤ nodeSize → field ((f.drop (word f 44 + i * nodeSize)).take nodeSize) k 4 = word f (word f 44 + 12 * i + k) := by
      intro k hk
      unfold field word number beVal
      rw [List.drop_take, List.take_take, List.drop_drop, Nat.min_eq_left (by omega), Nat.mul_comm i]
      rfl
    exact ⟨e 0 (by decide), e 4 (by decide)⟩
  · cases hb'

theorem open_flat {f : Bytes} (hs : Shallow f) {db : Db} (h : dbOpen f = .ok db) : Flat db := by
  obtain ⟨-, -, -, -, -, h6, -⟩ := open_ok h
  have key : ∀ k i, Deep db k i → Depth f k i := by
    intro k i hd
    induction hd with
    | root => exact .root
    | step hd hr hj h1 h2 ih =>
      obtain ⟨w1, w2⟩ := fetchNode_word h hr
      rw [w1, w2] at hj
      rw [h6] at h2
      exact .step ih hj h1 h2
  refine ⟨?_, fun k i hd => hs.2 k i (key k i hd)⟩
  have := hs.1
  rw [h6]
  omega

theorem calls_reads {α σ : Type} {db : Db} {next : σ → Res (Next α × σ)} (h : ∀ s, Reads db (next s)) (k : Nat) (s : σ) :
    Reads db (calls next k s) := by
  induction k generalizing s with
  | zero => exact Reads.ok _
  | succ k ih =>
    intro y he
    unfold calls at he
    cases hn : next s with
    | error z => rw [hn] at he; cases he; exact h s _ hn
    | ok v =>
      obtain ⟨x, s'⟩ := v
      rw [hn] at he
      simp only at he
      cases hc : calls next k s' with
      | error z => rw [hc] at he; cases he; exact ih s' _ hc
      | ok v => rw [hc] at he; cases he

theorem checkSignature_ok {P : Type} (check : P → Bytes → Bytes → VerifyOut) (key : P) {f : Bytes} {off len : Nat} (h : off + len ≤ f.length) :
    ∃ r, checkSignature check key f off len = .ok r := by
  unfold checkSignature
  split
  · exact ⟨_, rfl⟩
  unfold rd
  rw [if_pos h]
  simp only
  split <;> exact ⟨_, rfl⟩

/-! ## C18 -/

/-- Every call on every database object returns, whatever the bytes of the file are: metadata, verification, AS and
    country lookups, address lookups, and any number of calls of the enumerators. -/
theorem reads_terminate (db : Db) (k : Nat) :
    (dbVendor db ≠ .error .diverge ∧ dbDescription db ≠ .error .diverge ∧ dbLicense db ≠ .error .diverge) ∧
    (∀ number, getAs db number ≠ .error .diverge) ∧ (∀ code, getCountry db code ≠ .error .diverge) ∧
    (∀ a, lookup db a ≠ .error .diverge) ∧
    (∀ s, calls (nextAs db s) k 0 ≠ .error .diverge) ∧ (calls (nextCountry db) k 0 ≠ .error .diverge) ∧
    (∀ flt, calls (nextNetwork db) k (enumNew flt) ≠ .error .diverge) := by
  have r : ∀ {α : Type} {x : Res α}, Reads db x → x ≠ .error .diverge := fun h he => (by cases (h _ he).1)
  have f : Fine db .diverge → False := fun h => h.elim (fun h => (by cases h.1)) (fun h => (by cases h.1))
  exact ⟨⟨r (dbString_reads db _), r (dbString_reads db _), r (dbString_reads db _)⟩, fun n => r (getAs_reads db n), fun c => r (getCountry_reads db c),
    fun a he => f (lookup_fine db a _ he), fun s => r (calls_reads (fun i => (nextAsLoop_reads db s _ i).1) k 0),
    r (calls_reads (fun i => (nextCountry_reads db i).1) k 0),
    fun flt he => f (calls_fine db k _ (enumNew_sinv db flt).1 (enumNew_sinv db flt).2 _ he)⟩

/-- The AS and country enumerators come to an end: after at most as many objects as the file declares. -/
theorem index_enumerations_end (db : Db) :
    (∀ s fuel, db.asCount < fuel → drain (nextAs db s) fuel 0 ≠ .error .diverge) ∧
    (∀ fuel, db.countryCount < fuel → drain (nextCountry db) fuel 0 ≠ .error .diverge) := by
  have r : ∀ {α : Type} {x : Res α}, Reads db x → x ≠ .error .diverge := fun h he => (by cases (h _ he).1)
  refine ⟨fun s fuel hf => r (drain_reads (limit := db.asCount) (fun i => (nextAsLoop_reads db s _ i).1) ?_ fuel 0 (by omega)),
    fun fuel hf => r (drain_reads (limit := db.countryCount) (fun i => (nextCountry_reads db i).1) (fun i => (nextCountry_reads db i).2) fuel 0 (by omega))⟩
  intro i x j h
  rcases (nextAsLoop_reads db s _ i).2 x j h with h | h
  · exact .inl h
  · exact .inr ⟨h.1, by omega⟩

/-! ## C21 -/

/-- A file that begins with the magic and the supported version: exactly the files of less than 4192 bytes are read
    outside when they are opened.  Nothing else goes wrong there. -/
theorem open_outside_iff {f : Bytes} (hf : f.length < 2 ^ 64) :
    (dbOpen f = .error .eof ↔ f.take 8 = [76, 79, 67, 68, 66, 88, 88, 1] ∧ f.length < 4192) ∧
    dbOpen f ≠ .error .oob ∧ dbOpen f ≠ .error .diverge := by
  have hmagic : checkMagic f = 0 ↔ f.take 8 = [76, 79, 67, 68, 66, 88, 88, 1] := by
    unfold checkMagic
    constructor
    · intro h
      split at h
      · cases h
      split at h
      · rename_i h1 h2
        split at h
        · rename_i h3
          have : f.take 8 = f.take 7 ++ (f.drop 7).take 1 := by rw [← List.take_add]
          rw [this, h2, h3]
          rfl
        · cases h
      · cases h
    · intro h
      have hlen : ¬ f.length < magicSize := by
        intro hl
        have := congrArg List.length h
        rw [List.length_take] at this
        simp only [List.length_cons, List.length_nil] at this
        unfold magicSize at hl
        omega
      have e7 : f.take 7 = magicBytes := by
        have := congrArg (List.take 7) h
        rw [List.take_take] at this
        exact this
      have e1 : (f.drop 7).take 1 = [1] := by
        have := congrArg (List.drop 7) h
        rw [List.drop_take] at this
        exact this
      rw [if_neg hlen, if_pos e7, if_pos e1]
  have hbound : checkBoundaries f.length magicSize headerSize = true ↔ f.length < 4192 ∨ 4200 ≤ f.length := by
    unfold checkBoundaries
    rw [decide_eq_true_iff]
    show 8 ≤ (f.length + 2 ^ 64 - 4192) % 2 ^ 64 ↔ _
    by_cases hl : f.length < 4192
    · rw [Nat.mod_eq_of_lt (by omega)]
      omega
    · rw [show f.length + 2 ^ 64 - 4192 = (f.length - 4192) + 2 ^ 64 by omega, Nat.add_mod_right, Nat.mod_eq_of_lt (by omega)]
      omega
  unfold dbOpen
  by_cases h1 : checkMagic f = 0
  · rw [if_neg (by simpa using h1), ← hmagic]
    unfold readHeader
    by_cases h2 : checkBoundaries f.length magicSize headerSize = true
    · rw [h2]
      simp only [Bool.not_true, Bool.false_eq_true, if_false]
      rcases hbound.mp h2 with h3 | h3
      · unfold rd
        rw [if_neg (by unfold magicSize headerSize sigMax; omega)]
        exact ⟨⟨fun _ => ⟨h1, h3⟩, fun _ => rfl⟩, (by intro h; cases h), (by intro h; cases h)⟩
      · unfold rd
        rw [if_pos (by unfold magicSize headerSize sigMax; omega)]
        simp only
        have hne : ¬ f.length < 4192 := by omega
        split
        · exact ⟨⟨fun h => (by cases h), fun h => absurd h.2 hne⟩, (by intro h; cases h), (by intro h; cases h)⟩
        split
        · exact ⟨⟨fun h => (by cases h), fun h => absurd h.2 hne⟩, (by intro h; cases h), (by intro h; cases h)⟩
        split
        · exact ⟨⟨fun h => (by cases h), fun h => absurd h.2 hne⟩, (by intro h; cases h), (by intro h; cases h)⟩
        · exact ⟨⟨fun h => (by cases h), fun h => absurd h.2 hne⟩, (by intro h; cases h), (by intro h; cases h)⟩
    · have h2' : checkBoundaries f.length magicSize headerSize = false := by simpa using h2
      rw [h2']
      have hne : ¬ f.length < 4192 := fun h => h2 (hbound.mpr (.inl h))
      exact ⟨⟨fun h => (by cases h), fun h => absurd h.2 hne⟩, (by intro h; cases h), (by intro h; cases h)⟩
  · rw [if_pos h1]
    exact ⟨⟨fun h => (by cases h), fun h => absurd (hmagic.mpr h.1) h1⟩, (by intro h; cases h), (by intro h; cases h)⟩

/-- Reading the vendor (its place in the pool is stored at 16) leaves the file exactly if its place is inside the
    declared pool, but no NUL byte follows. -/
theorem vendor_outside_iff {f : Bytes} {db : Db} (h : dbOpen f = .ok db) :
    dbVendor db = .error .eof ↔ word f 16 < word f 64 ∧ ∀ i, word f 60 + word f 16 ≤ i → f[i]? ≠ some 0 := by
  obtain ⟨-, h2, h3, h4, -, -, h7, -⟩ := open_ok h
  unfold dbVendor dbString
  rw [h2, h3, h4, h7]
  obtain ⟨c1, c2⟩ := cstrAt_eof_iff f (word f 60 + word f 16)
  split
  · rename_i hge
    exact ⟨fun h => (by cases h), fun h => absurd h.1 (by omega)⟩
  · rename_i hlt
    cases hc : cstrAt f (word f 60 + word f 16) with
    | ok s => exact ⟨fun h => (by cases h), fun h => absurd (c1.mpr h.2) (by rw [hc]; intro h; cases h)⟩
    | error y =>
      obtain rfl := c2 y hc
      exact ⟨fun _ => ⟨by omega, c1.mp hc⟩, fun _ => rfl⟩

/-- After a file was opened whose strings end in the file, everything is read inside the file: metadata, signatures,
    ASes, countries, address lookups and any number of calls of the enumerators.
    Missing from the full claim: files that are shorter than the header or whose strings do not end, for which it does
    not hold (`open_outside_iff`, `vendor_outside_iff`, `reads_violated`). -/
theorem reads_inside_partial {f : Bytes} (hf : f.length < 2 ^ 64) (hs : StringsEnd f) {db : Db} (h : dbOpen f = .ok db) (k : Nat) :
    (dbVendor db ≠ .error .eof ∧ dbDescription db ≠ .error .eof ∧ dbLicense db ≠ .error .eof) ∧
    (∀ {P : Type} (v : VEnv P), ∃ r, dbVerify v db = .ok r) ∧
    (∀ number, getAs db number ≠ .error .eof) ∧ (∀ code, getCountry db code ≠ .error .eof) ∧
    (∀ a, lookup db a ≠ .error .eof) ∧
    (∀ s, calls (nextAs db s) k 0 ≠ .error .eof) ∧ (calls (nextCountry db) k 0 ≠ .error .eof) ∧
    (∀ flt, calls (nextNetwork db) k (enumNew flt) ≠ .error .eof) := by
  have hin := open_inFile hf hs h
  have r : ∀ {α : Type} {x : Res α}, Reads db x → x ≠ .error .eof := fun h he => (h _ he).2 hin
  have g : Fine db .eof → False := fun h => h.elim (fun h => h.2 hin) (fun h => (by cases h.1))
  refine ⟨⟨r (dbString_reads db _), r (dbString_reads db _), r (dbString_reads db _)⟩, ?_, fun n => r (getAs_reads db n), fun c => r (getCountry_reads db c),
    fun a he => g (lookup_fine db a _ he), fun s => r (calls_reads (fun i => (nextAsLoop_reads db s _ i).1) k 0),
    r (calls_reads (fun i => (nextCountry_reads db i).1) k 0),
    fun flt he => g (calls_fine db k _ (enumNew_sinv db flt).1 (enumNew_sinv db flt).2 _ he)⟩
  intro P v
  obtain ⟨h1, h2, -, -, -, -, -, -, -, s1, s2, s3, s4⟩ := open_ok h
  unfold dbVerify
  rw [h2, s1, s3]
  split
  · exact ⟨_, rfl⟩
  split
  · exact ⟨_, rfl⟩
  split
  · exact ⟨_, rfl⟩
  split
  · exact ⟨_, rfl⟩
  rename_i key _ _ _ _
  obtain ⟨r1, e1⟩ := checkSignature_ok v.check key (f := f) (off := 72) (len := db.sig1Len) (by omega)
  obtain ⟨r2, e2⟩ := checkSignature_ok v.check key (f := f) (off := 2120) (len := db.sig2Len) (by omega)
  rw [e1]
  cases r1 with
  | none => exact ⟨_, rfl⟩
  | some b1 =>
    simp only
    rw [e2]
    cases r2 <;> exact ⟨_, rfl⟩

/-- Files written by the library are of this kind. -/
theorem written_strings_end {K : Type} {ctz0 : Nat} (h0 : 8 ≤ ctz0) {key1 key2 : Option K} {ops : List (WOp K)} {e : WEnv K}
    {w : Writer K} {f : Bytes} (h : Written ctz0 key1 key2 ops e w f) : StringsEnd f := by
  obtain ⟨-, -, -, -, -, -, -, -, -, h1, h2⟩ := layout_wellformed h0 h
  exact fun off ho => ⟨_, by omega, h2⟩

/-! ## C46 -/

/-- Looking up addresses and enumerating networks in any file stays inside the 16 octets of the address, the traversal
    stack and the table of visited nodes, if there is a node and none lies 128 or more steps below the first.
    Missing from the full claim: other files, for which it does not hold (`traversal_violated`,
    `traversal_violated_empty`). -/
theorem traversal_bounds_partial {f : Bytes} (hs : Shallow f) {db : Db} (h : dbOpen f = .ok db) :
    (∀ a, lookup db a ≠ .error .oob) ∧ ∀ flt k, calls (nextNetwork db) k (enumNew flt) ≠ .error .oob := by
  have hfl := open_flat hs h
  have g : Fine db .oob → False := fun h => h.elim (fun h => (by cases h.1)) (fun h => h.2 hfl)
  exact ⟨fun a he => g (lookup_fine db a _ he),
    fun flt k he => g (calls_fine db k _ (enumNew_sinv db flt).1 (enumNew_sinv db flt).2 _ he)⟩

/-- If moreover the strings end in the file, every lookup returns, and so does any number of calls of the enumerator. -/
theorem traversal_total_partial {f : Bytes} (hf : f.length < 2 ^ 64) (he : StringsEnd f) (hs : Shallow f) {db : Db} (h : dbOpen f = .ok db) :
    (∀ a, ∃ r, lookup db a = .ok r) ∧ ∀ flt k, ∃ r, calls (nextNetwork db) k (enumNew flt) = .ok r := by
  have hfl := open_flat hs h
  have hin := open_inFile hf he h
  have g : ∀ y, Fine db y → False := fun y h => h.elim (fun h => h.2 hin) (fun h => h.2 hfl)
  constructor
  · intro a
    cases hl : lookup db a with
    | ok r => exact ⟨r, rfl⟩
    | error y => exact (g y (lookup_fine db a _ hl)).elim
  · intro flt k
    cases hl : calls (nextNetwork db) k (enumNew flt) with
    | ok r => exact ⟨r, rfl⟩
    | error y => exact (g y (calls_fine db k _ (enumNew_sinv db flt).1 (enumNew_sinv db flt).2 _ hl)).elim

/-! ## Files that are read wrongly -/

/-- A header: magic, creation time, vendor, description, license, then offset and length of the ASes, networks, tree,
    countries and the pool, then two empty signatures and the padding. -/
def headerFile (words : List Nat) (body : Bytes) : Bytes :=
  [76, 79, 67, 68, 66, 88, 88, 1] ++ List.replicate 8 0 ++ words.flatMap be32 ++ List.replicate (4 + 4096 + 32) 0 ++ body

/-- Eight bytes are accepted as a database: the bounds check wraps around, and the header is read behind them. -/
theorem open_violated : dbOpen [76, 79, 67, 68, 66, 88, 88, 1] = .error .eof :=
  (open_outside_iff (by decide)).1.mpr (by decide)

/-- A pool of two bytes that is not terminated. -/
def unterminated : Bytes := headerFile [0, 0, 0, 0, 0, 0, 0, 0, 0, 0, 0, 4200, 2] [65, 66]

/-- A pool that is declared longer than the file. -/
def longPool : Bytes := headerFile [4300, 0, 0, 0, 0, 0, 0, 0, 0, 0, 0, 0, 5000] []

set_option maxRecDepth 100000 in
/-- Both files are opened, and reading the vendor leaves them. -/
theorem reads_violated :
    (match dbOpen unterminated with | .ok db => dbVendor db == .error .eof | .error _ => false) = true ∧
    (match dbOpen longPool with | .ok db => dbVendor db == .error .eof | .error _ => false) = true := by
  decide +kernel

/-- A tree of 130 nodes, each below the other, in the place of the (empty) signatures. -/
def chainFile : Bytes :=
  [76, 79, 67, 68, 66, 88, 88, 1] ++ List.replicate 8 0 ++ [0, 0, 0, 0, 0, 0, 0, 72, 1560, 0, 0, 0, 0].flatMap be32 ++ List.replicate 4 0 ++
  ((List.range 130).flatMap fun i => be32 (if i < 129 then i + 1 else 0) ++ be32 0 ++ be32 0xffffffff) ++ List.replicate 2568 0

/-- No tree. -/
def emptyFile : Bytes := headerFile [0, 0, 0, 0, 0, 0, 0, 0, 0, 0, 0, 0, 0] []

def isOob {α : Type} : Res α → Bool
  | .error .oob => true
  | _ => false

set_option maxRecDepth 100000 in
/-- The file is opened; looking up the address `::` reads and writes the octet behind the address, and so does the
    first call of the enumerator. -/
theorem traversal_violated :
    (match dbOpen chainFile with
      | .ok db => isOob (lookup db (Vector.replicate 16 0)) && isOob (nextNetwork db (enumNew noFilter))
      | .error _ => false) = true := by
  decide +kernel

set_option maxRecDepth 100000 in
/-- Without a tree the first call of the enumerator reads the table of visited nodes, which has no entries. -/
theorem traversal_violated_empty :
    (match dbOpen emptyFile with | .ok db => isOob (nextNetwork db (enumNew noFilter)) | .error _ => false) = true := by
  decide +kernel

/-! ## Examples -/

/-- A file that was not written by the library: both halves of the tree share a node, with a network. -/
def sharedFile : Bytes := headerFile [0, 0, 0, 0, 0, 4224, 12, 4200, 24, 0, 0, 4236, 1]
  (be32 1 ++ be32 1 ++ be32 0xffffffff ++ (be32 0 ++ be32 0 ++ be32 0) ++ [68, 69, 0, 0, 0, 0, 0, 7, 0, 0, 0, 0] ++ [0])

set_option maxRecDepth 100000 in
theorem shared_words : word sharedFile 64 = 1 ∧ word sharedFile 60 = 4236 ∧ sharedFile[4236]? = some 0 ∧ word sharedFile 48 = 24 ∧
    nodeWord sharedFile 0 0 = 1 ∧ nodeWord sharedFile 0 1 = 1 ∧ nodeWord sharedFile 1 0 = 0 ∧ nodeWord sharedFile 1 1 = 0 ∧
    sharedFile.length = 4237 := by decide +kernel

set_option maxRecDepth 100000 in
theorem shared_open : (match dbOpen sharedFile with | .ok _ => true | .error _ => false) = true := by decide +kernel

theorem shared_shallow : Shallow sharedFile := by
  obtain ⟨-, -, -, h3, h4, h5, h6, h7, -⟩ := shared_words
  refine ⟨by omega, fun k i hd => ?_⟩
  have : (k = 0 ∧ i = 0) ∨ (k = 1 ∧ i = 1) := by
    induction hd with
    | root => exact .inl ⟨rfl, rfl⟩
    | step _ hj h1 _ ih =>
      rcases ih with ⟨rfl, rfl⟩ | ⟨rfl, rfl⟩
      · rw [h4, h5] at hj
        exact .inr ⟨rfl, by omega⟩
      · rw [h6, h7] at hj
        omega
  omega

/-- The hypotheses of `reads_inside_partial` and `traversal_bounds_partial` hold for it. -/
example : ∃ db, dbOpen sharedFile = .ok db ∧ sharedFile.length < 2 ^ 64 ∧ StringsEnd sharedFile ∧ Shallow sharedFile ∧
    ∀ a, ∃ r, lookup db a = .ok r := by
  obtain ⟨h0, h1, h2, -, -, -, -, -, h8⟩ := shared_words
  have hs : StringsEnd sharedFile := fun off ho => ⟨4236, by omega, h2⟩
  have ho := shared_open
  cases hdb : dbOpen sharedFile with
  | error y => rw [hdb] at ho; cases ho
  | ok db => exact ⟨db, rfl, by rw [h8]; decide, hs, shared_shallow, (traversal_total_partial (by rw [h8]; decide) hs shared_shallow hdb).1⟩

end Loc.Props
