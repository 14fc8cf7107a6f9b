import Verif.Props.File
/-
Verifying signatures (C27) and writing them.
-/
namespace Loc.Props
open Loc Loc.Spec

theorem ite_elim {α : Type} {c : Prop} [Decidable c] {a b x : α} (h1 : c → a = x) (h2 : ¬ c → b = x) : (if c then a else b) = x := by
  split
  · exact h1 ‹_›
  · exact h2 ‹_›

theorem verifyMessage_get {f : Bytes} (hf : 4200 ≤ f.length) (i : Nat) :
    (verifyMessage f)[i]? = if 68 ≤ i ∧ i < 4168 then some 0 else f[i]? := by
  have h1 : (f.take 8).length = 8 := by rw [List.length_take]; omega
  have h2 : ((f.drop 8).take 60).length = 60 := by rw [List.length_take, List.length_drop]; omega
  have h3 : ((f.drop 4168).take 32).length = 32 := by rw [List.length_take, List.length_drop]; omega
  unfold verifyMessage
  rw [show magicSize + 64 + 2 * sigMax = 4168 from rfl, show magicSize + headerSize = 4200 from rfl, show magicSize = 8 from rfl]
  have hS : sigMax = 2048 := rfl
  generalize sigMax = S at *
  by_cases c1 : i < 8
  · rw [List.append_assoc, List.getElem?_append_left (by omega), if_neg (by omega), List.getElem?_take, if_pos c1]
  rw [List.append_assoc, List.getElem?_append_right (by omega), h1]
  simp only [List.append_assoc]
  by_cases c2 : i < 68
  · rw [List.getElem?_append_left (by omega), if_neg (by omega), List.getElem?_take, if_pos (by omega), List.getElem?_drop]
    congr 1; omega
  rw [List.getElem?_append_right (by omega), h2]
  by_cases c3 : i < 72
  · rw [List.getElem?_append_left (by rw [List.length_replicate]; omega), if_pos (by omega), List.getElem?_replicate, if_pos (by omega)]
  rw [List.getElem?_append_right (by rw [List.length_replicate]; omega), List.length_replicate]
  by_cases c4 : i < 72 + S
  · rw [List.getElem?_append_left (by rw [List.length_replicate]; omega), if_pos (by omega), List.getElem?_replicate, if_pos (by omega)]
  rw [List.getElem?_append_right (by rw [List.length_replicate]; omega), List.length_replicate]
  by_cases c5 : i < 4168
  · rw [List.getElem?_append_left (by rw [List.length_replicate]; omega), if_pos (by omega), List.getElem?_replicate, if_pos (by omega)]
  rw [List.getElem?_append_right (by rw [List.length_replicate]; omega), List.length_replicate, if_neg (by omega)]
  by_cases c6 : i < 4200
  · rw [List.getElem?_append_left (by omega), List.getElem?_take, if_pos (by omega), List.getElem?_drop]
    congr 1; omega
  rw [List.getElem?_append_right (by omega), h3, List.getElem?_drop]
  congr 1; omega

/-! ## C27 -/

/-- The verified message determines the length of the file and every byte outside of the two signatures and
    their lengths (bytes 68 to 4167), and nothing else. -/
theorem verify_message_covers (f g : Bytes) (hf : 4200 ≤ f.length) (hg : 4200 ≤ g.length) :
    verifyMessage f = verifyMessage g ↔ f.length = g.length ∧ ∀ i, i < 68 ∨ 4168 ≤ i → f[i]? = g[i]? := by
  constructor
  · intro h
    have key : ∀ i, i < 68 ∨ 4168 ≤ i → f[i]? = g[i]? := by
      intro i hi
      have := congrArg (·[i]?) h
      simp only [verifyMessage_get hf, verifyMessage_get hg] at this
      rwa [if_neg (by omega), if_neg (by omega)] at this
    refine ⟨?_, key⟩
    have a := key f.length (by omega)
    have b := key g.length (by omega)
    simp at a b
    omega
  · rintro ⟨-, h⟩
    apply List.ext_getElem?
    intro i
    rw [verifyMessage_get hf, verifyMessage_get hg]
    split
    · rfl
    · exact h i (by omega)

/-- The signatures of a file: both lengths are stored as 16 bit big-endian numbers at 68 and 70, the
    signatures at 72 and 2120. -/
def storedSignature (f : Bytes) (second : Bool) : Bytes :=
  let len := (((f.drop (if second then 70 else 68)).take 2).foldl (fun acc b => acc * 256 + b.toNat) 0)
  (f.drop (if second then 2120 else 72)).take len

theorem rd_ok {f b : Bytes} {off len : Nat} (h : rd f off len = .ok b) : b = (f.drop off).take len ∧ off + len ≤ f.length := by
  unfold rd at h
  split at h
  · rename_i hl; cases h; exact ⟨rfl, hl⟩
  · cases h

theorem field_take {f h : Bytes} {k off len : Nat} (hr : rd f 8 k = .ok h) (hl : off + len ≤ k) : field h off len = field f (8 + off) len := by
  obtain ⟨rfl, _⟩ := rd_ok hr
  unfold field
  rw [List.drop_take, List.take_take, List.drop_drop, Nat.min_eq_left (by omega)]

theorem open_sigs {f : Bytes} {db : Db} (h : dbOpen f = .ok db) :
    db.file = f ∧ db.sig1Off = 72 ∧ db.sig2Off = 2120 ∧ db.sig1Len = field f 68 2 ∧ db.sig2Len = field f 70 2 := by
  unfold dbOpen at h
  split at h
  · cases h
  unfold readHeader at h
  split at h
  · cases h
  split at h
  · cases h
  rename_i hd hrd
  split at h
  · cases h
  split at h
  · cases h
  split at h
  · cases h
  cases h
  exact ⟨rfl, rfl, rfl, field_take hrd (by decide), field_take hrd (by decide)⟩

theorem checkSignature_true {P : Type} {check : P → Bytes → Bytes → VerifyOut} {key : P} {f : Bytes} {off len : Nat}
    (h : checkSignature check key f off len = .ok (some true)) :
    len ≠ 0 ∧ (f.drop off).take len ≠ [] ∧ check key (verifyMessage f) ((f.drop off).take len) = .valid := by
  unfold checkSignature at h
  split at h
  · cases h
  rename_i hl
  split at h
  · cases h
  rename_i sig hs
  obtain ⟨rfl, hlen⟩ := rd_ok hs
  split at h
  · rename_i hv
    refine ⟨hl, ?_, hv⟩
    intro h0
    have := congrArg List.length h0
    rw [List.length_take, List.length_drop, List.length_nil] at this
    omega
  · cases h
  · cases h

/-- A file is accepted only if the public key could be read and one of its stored signatures is not empty and
    a valid signature of the file's message. -/
theorem verify_only_valid {P : Type} {v : VEnv P} {f : Bytes} {db : Db} (ho : dbOpen f = .ok db) (h : dbVerify v db = .ok 0) :
    ∃ key second, v.key = some key ∧ storedSignature f second ≠ [] ∧
      v.check key (verifyMessage f) (storedSignature f second) = .valid := by
  obtain ⟨hf, o1, o2, l1, l2⟩ := open_sigs ho
  have sg1 : storedSignature f false = (db.file.drop db.sig1Off).take db.sig1Len := by rw [hf, o1, l1]; rfl
  have sg2 : storedSignature f true = (db.file.drop db.sig2Off).take db.sig2Len := by rw [hf, o2, l2]; rfl
  unfold dbVerify at h
  split at h
  · cases h
  rename_i key hk
  split at h
  · cases h
  split at h
  · cases h
  split at h
  · cases h
  split at h
  · cases h
  · cases h
  rename_i ok1 h1
  split at h
  · cases h
  · cases h
  rename_i ok2 h2
  cases ok1 with
  | true =>
    obtain ⟨-, a, b⟩ := checkSignature_true h1
    exact ⟨key, false, hk, sg1 ▸ a, by rw [sg1]; rw [hf] at b ⊢; exact b⟩
  | false =>
    cases ok2 with
    | true =>
      obtain ⟨-, a, b⟩ := checkSignature_true h2
      exact ⟨key, true, hk, sg2 ▸ a, by rw [sg2]; rw [hf] at b ⊢; exact b⟩
    | false => cases h

/-- A file without signatures is never accepted. -/
theorem verify_unsigned {P : Type} (v : VEnv P) {f : Bytes} {db : Db} (ho : dbOpen f = .ok db)
    (hs : ∀ second, storedSignature f second = []) : dbVerify v db ≠ .ok 0 := by
  intro h
  obtain ⟨key, second, -, hne, -⟩ := verify_only_valid ho h
  exact hne (hs second)

/-- A written file that nobody signed is never accepted. -/
theorem verify_written_unsigned {K P : Type} {ctz0 : Nat} (h0 : 8 ≤ ctz0) {ops : List (WOp K)} {e : WEnv K}
    {w : Writer K} {f : Bytes} (h : Written ctz0 none none ops e w f) (v : VEnv P) :
    ∃ db, dbOpen f = .ok db ∧ dbVerify v db ≠ .ok 0 := by
  obtain ⟨w0, s, sig1, sig2, tail, db, -, vw, -, -, -, -, b1, n1, b2, n2, msg, -, -, -, -, -, z1, z2, e1, e2, -⟩ := written_view h0 h
  refine ⟨db, vw.opened, verify_unsigned v vw.opened ?_⟩
  obtain ⟨hf, o1, o2, l1, l2⟩ := open_sigs vw.opened
  have s1 : field f 68 2 = 0 := by rw [← l1, vw.sig1.2, e1, z1 rfl]; simp
  have s2 : field f 70 2 = 0 := by rw [← l2, vw.sig2.2, e2, z2 rfl]; simp
  intro second
  cases second with
  | false => show (f.drop 72).take (field f 68 2) = []; rw [s1, List.take_zero]
  | true => show (f.drop 2120).take (field f 70 2) = []; rw [s2, List.take_zero]

/-- The full claim: whatever was written with a private key is accepted with the matching public key. -/
def AcceptsOwn {K P : Type} (key1 key2 : Option K) (e : WEnv K) (v : VEnv P) (db : Db) : Prop :=
  ∀ k p, (key1 = some k ∨ key2 = some k) → v.key = some p →
    (∀ msg s, e.sign k msg = .ok s → s ≠ [] ∧ v.check p msg s = .valid) → v.ready = true → dbVerify v db = .ok 0

theorem signWith_ok {K : Type} {sign : K → Bytes → SignOut} {k : K} {msg o b s : Bytes} {m n : Nat}
    (hs : sign k msg = .ok s) (h : signWith sign (some k) msg o m = .ok (b, n)) : b.take n = s ∧ n = s.length ∧ n ≤ sigMax := by
  unfold signWith createSignature at h
  simp only [hs] at h
  split at h
  · rename_i hl
    cases h
    exact ⟨by rw [List.take_left], rfl, hl⟩
  · cases h

theorem slice {f pre x post : Bytes} {a b : Nat} (h : f = pre ++ (x ++ post)) (ha : pre.length = a) (hb : x.length = b) :
    (f.drop a).take b = x ∧ f.drop a = x ++ post := by
  rw [h, List.drop_left' ha]
  exact ⟨List.take_left' hb, rfl⟩

theorem layout_message {f : Bytes} {s : Sections} {h : Header} {sig1 sig2 tail : Bytes} (l : Layout f s h sig1 sig2 tail) :
    verifyMessage f = magic ++ headerBytes h [] [] ++ (bodyBytes s ++ tail) ∧ 4200 ≤ f.length ∧
    (f.drop 72).take sig1.length = sig1 ∧ (f.drop 2120).take sig2.length = sig2 := by
  have n1 := length_sigField l.len1
  have n2 := length_sigField l.len2
  have nm : magic.length = 8 := rfl
  have nf := length_headerFields h
  have nb : ∀ n, (be16 n).length = 2 := fun _ => rfl
  have nr : (List.replicate 32 (0 : Byte)).length = 32 := List.length_replicate ..
  have hS : sigMax = 2048 := rfl
  have e1 : f = magic ++ (headerFields h ++ (be16 sig1.length ++ (be16 sig2.length ++ (sigField sig1 ++ (sigField sig2 ++ (List.replicate 32 0 ++ (bodyBytes s ++ tail))))))) := by
    rw [l.eq]; simp only [headerBytes, List.append_assoc]
  have hl : 4200 ≤ f.length := by
    rw [e1]
    simp only [List.length_append, n1, n2, nm, nf, nb, nr]
    omega
  have t1 : f.take 8 = magic := by rw [e1]; exact List.take_left' rfl
  have t2 : (f.drop 8).take 60 = headerFields h := (slice e1 nm nf).1
  have t3 := slice (f := f) (pre := magic ++ (headerFields h ++ (be16 sig1.length ++ (be16 sig2.length ++ (sigField sig1 ++ sigField sig2)))))
    (x := List.replicate 32 0) (post := bodyBytes s ++ tail) (a := 4168) (b := 32) (by rw [e1]; simp only [List.append_assoc])
    (by simp only [List.length_append, n1, n2, nm, nf, nb, hS]) nr
  have t4 := slice (f := f) (pre := magic ++ (headerFields h ++ (be16 sig1.length ++ (be16 sig2.length ++ (sigField sig1 ++ (sigField sig2 ++ List.replicate 32 0))))))
    (x := bodyBytes s) (post := tail) (a := 4200) (b := (bodyBytes s).length) (by rw [e1]; simp only [List.append_assoc])
    (by simp only [List.length_append, n1, n2, nm, nf, nb, nr, hS]) rfl
  have t5 := slice (f := f) (pre := magic ++ (headerFields h ++ (be16 sig1.length ++ (be16 sig2.length))))
    (x := sig1) (post := List.replicate (sigMax - sig1.length) 0 ++ (sigField sig2 ++ (List.replicate 32 0 ++ (bodyBytes s ++ tail)))) (a := 72) (b := sig1.length)
    (by rw [e1]; simp only [List.append_assoc, sigField])
    (by simp only [List.length_append, nm, nf, nb]) rfl
  have t6 := slice (f := f) (pre := magic ++ (headerFields h ++ (be16 sig1.length ++ (be16 sig2.length ++ sigField sig1))))
    (x := sig2) (post := List.replicate (sigMax - sig2.length) 0 ++ (List.replicate 32 0 ++ (bodyBytes s ++ tail))) (a := 2120) (b := sig2.length)
    (by rw [e1]; simp only [List.append_assoc, sigField])
    (by simp only [List.length_append, nm, nf, nb, n1, hS]) rfl
  refine ⟨?_, hl, t5.1, t6.1⟩
  unfold verifyMessage headerBytes
  rw [show magicSize + 64 + 2 * sigMax = 4168 from rfl, show magicSize + headerSize = 4200 from rfl, show magicSize = 8 from rfl,
    t1, t2, t3.1, t4.2]
  have z : be16 (([] : Bytes).length) ++ be16 (([] : Bytes).length) = List.replicate 4 0 := by decide
  have z2 : sigField [] = List.replicate sigMax 0 := by rw [sigField, List.nil_append]; rfl
  rw [z2, ← z]
  simp only [List.append_assoc]

theorem checkSignature_stored {P : Type} {check : P → Bytes → Bytes → VerifyOut} {key : P} {f : Bytes} {off len : Nat}
    (h1 : off + len ≤ f.length) (h2 : len ≠ 0) (hv : check key (verifyMessage f) ((f.drop off).take len) = .valid) :
    checkSignature check key f off len = .ok (some true) := by
  unfold checkSignature rd
  rw [if_neg h2, if_pos h1]
  simp only [hv]

theorem checkSignature_total {P : Type} {check : P → Bytes → Bytes → VerifyOut} {key : P} {f : Bytes} {off len : Nat}
    (h1 : off + len ≤ f.length) (hv : ∀ s, check key (verifyMessage f) s ≠ .error) :
    ∃ b, checkSignature check key f off len = .ok (some b) := by
  unfold checkSignature rd
  rw [if_pos h1]
  split
  · exact ⟨false, rfl⟩
  simp only
  split
  · exact ⟨_, rfl⟩
  · exact ⟨_, rfl⟩
  · rename_i he; exact absurd he (hv _)

/-- A written file is accepted with the public key of any of the signing keys, provided that signing
    really signed (OpenSSL did not fail with 0) and that checking the other signature does not end
    with an error. -/
theorem verify_accepts_signed_partial {K P : Type} {ctz0 : Nat} (h0 : 8 ≤ ctz0) {key1 key2 : Option K} {ops : List (WOp K)} {e : WEnv K}
    {w : Writer K} {f : Bytes} (h : Written ctz0 key1 key2 ops e w f) (v : VEnv P)
    (hs : ∀ k msg, key1 = some k ∨ key2 = some k → ∃ s, e.sign k msg = .ok s)
    (hv : ∀ p msg s, v.check p msg s ≠ .error) :
    ∃ db, dbOpen f = .ok db ∧ AcceptsOwn key1 key2 e v db := by
  obtain ⟨w0, s, sig1, sig2, tail, db, -, vw, -, -, -, -, b1, n1, b2, n2, msg, hmsg, -, -, m1, m2, z1, z2, e1, e2, ⟨o1, k1, g1, q1⟩, o2, k2, g2, q2⟩ := written_view h0 h
  refine ⟨db, vw.opened, ?_⟩
  intro k p hk hp hc hr
  obtain ⟨hmsg', hlen, p1, p2⟩ := layout_message vw.layout
  rw [← hmsg] at hmsg'
  have hS : sigMax = 2048 := rfl
  have key1ok : key1 = some k → checkSignature v.check p f 72 sig1.length = .ok (some true) := by
    intro hk1
    obtain ⟨sg, hsg⟩ := hs k msg (.inl hk1)
    rw [hk1] at g1
    obtain ⟨c1, c2, c3⟩ := signWith_ok hsg g1
    obtain ⟨hne, hval⟩ := hc msg sg hsg
    have hsig : sig1 = sg := e1.trans c1
    refine checkSignature_stored ?_ ?_ ?_
    · rw [hsig]; omega
    · rw [hsig]; exact fun h => hne (List.length_eq_zero_iff.mp h)
    · rw [p1, hmsg', hsig]; exact hval
  have key2ok : key2 = some k → checkSignature v.check p f 2120 sig2.length = .ok (some true) := by
    intro hk2
    obtain ⟨sg, hsg⟩ := hs k msg (.inr hk2)
    rw [hk2] at g2
    obtain ⟨c1, c2, c3⟩ := signWith_ok hsg g2
    obtain ⟨hne, hval⟩ := hc msg sg hsg
    have hsig : sig2 = sg := e2.trans c1
    refine checkSignature_stored ?_ ?_ ?_
    · rw [hsig]; omega
    · rw [hsig]; exact fun h => hne (List.length_eq_zero_iff.mp h)
    · rw [p2, hmsg', hsig]; exact hval
  have l1 : sig1.length ≤ sigMax := vw.layout.len1
  have l2 : sig2.length ≤ sigMax := vw.layout.len2
  obtain ⟨r1, hr1⟩ := checkSignature_total (check := v.check) (key := p) (f := f) (off := 72) (len := sig1.length) (by omega) (fun s => hv _ _ s)
  obtain ⟨r2, hr2⟩ := checkSignature_total (check := v.check) (key := p) (f := f) (off := 2120) (len := sig2.length) (by omega) (fun s => hv _ _ s)
  have hor : (r1 || r2) = true := by
    rcases hk with hk | hk
    · rw [key1ok hk] at hr1; cases hr1; rfl
    · rw [key2ok hk] at hr2; cases hr2; cases r1 <;> rfl
  unfold dbVerify
  simp only [hp, hr, vw.file, vw.sig1.1, vw.sig1.2, vw.sig2.1, vw.sig2.2, hr1]
  rw [show 72 + sigMax = 2120 from rfl, hr2]
  have m1 : ¬ f.length < magicSize := by simp only [magicSize]; omega
  have m2 : ¬ f.length < magicSize + headerSize := by rw [show magicSize + headerSize = 4200 from rfl]; omega
  simp only [Bool.not_true, Bool.false_eq_true, if_false, m1, m2, hor, if_true]

/-! A toy signature scheme for examples: a key is a byte, a signature of a message is the key. -/

def toySign (k : Byte) (_ : Bytes) : SignOut := .ok [k]
/-- Fails on everything that is not a signature by the key, as some schemes do on malformed signatures. -/
def toyCheck (p : Byte) (_ s : Bytes) : VerifyOut := if s = [p] then .valid else .error
/-- Rejects everything that is not a signature by the key. -/
def toyCheck' (p : Byte) (_ s : Bytes) : VerifyOut := if s = [p] then .valid else .invalid

def toyEnv (sign : Byte → Bytes → SignOut) : WEnv Byte := ⟨32, (·.pfx), 1700000000, fun _ => (1, 2, 3, 4), (90, 90), sign⟩

/-- The file a new writer with keys writes, together with the answer to a question about it. -/
def signedAsk {α : Type} (e : WEnv Byte) (key1 key2 : Option Byte) (q : Bytes → Db → Option α) : Option α :=
  match writerNew key1 key2 with
  | .error _ => none
  | .ok w => match writerWrite e w [] 1 with
    | .ok (_, some f) => if f.length < 2 ^ 32 then (match dbOpen f with
        | .ok db => q f db
        | .error _ => none) else none
    | _ => none

theorem signedAsk_written {α : Type} {e : WEnv Byte} (he : e.ctz0 = 32) {key1 key2 : Option Byte} {q : Bytes → Db → Option α} {x : α}
    (h : signedAsk e key1 key2 q = some x) : ∃ w f db, Written 32 key1 key2 [] e w f ∧ dbOpen f = .ok db ∧ q f db = some x := by
  unfold signedAsk at h
  split at h
  · cases h
  rename_i w0 h0
  split at h
  · rename_i w1 f h1
    split at h
    · rename_i hl
      split at h
      · rename_i db hdb
        exact ⟨w1, f, db, ⟨w0, [], 1, ⟨fun _ h => (List.not_mem_nil h).elim, w0, h0, rfl⟩, he, h1, hl⟩, hdb, h⟩
      · cases h
    · cases h
  · cases h

/-- A file signed with keys 5 and 7 meets the hypotheses of `verify_accepts_signed_partial` and is accepted with
    either. -/
example : signedAsk (toyEnv toySign) (some 5) (some 7) (fun _ db => (dbVerify ⟨some 7, true, toyCheck'⟩ db).toOption) = some 0 ∧
    signedAsk (toyEnv toySign) (some 5) (some 7) (fun _ db => (dbVerify ⟨some 5, true, toyCheck'⟩ db).toOption) = some 0 ∧
    signedAsk (toyEnv toySign) (some 5) (some 7) (fun _ db => (dbVerify ⟨some 6, true, toyCheck'⟩ db).toOption) = some 1 := by
  decide +kernel

/-- The code violates the full claim: when checking the first signature fails with an error the second one is not
    looked at. -/
theorem verify_accepts_violated : ∃ w f db, Written 32 (some 5) (some 7) [] (toyEnv toySign) w f ∧ dbOpen f = .ok db ∧
    ¬ AcceptsOwn (some 5) (some 7) (toyEnv toySign) ⟨some 7, true, toyCheck⟩ db := by
  obtain ⟨w, f, db, h1, h2, h3⟩ := signedAsk_written (e := toyEnv toySign) (key1 := some 5) (key2 := some 7)
    (q := fun _ db => (dbVerify ⟨some 7, true, toyCheck⟩ db).toOption) (x := -1) rfl (by decide +kernel)
  refine ⟨w, f, db, h1, h2, ?_⟩
  intro h
  rw [h 7 7 (.inr rfl) rfl (by rintro msg s ⟨⟩; exact ⟨by decide, rfl⟩) rfl] at h3
  cases h3

/-! ## C44 -/

/-- What the caller of a successful write with a key relies on: the file carries a signature of itself made
    with that key. -/
def CarriesSignature {K : Type} (sign : K → Bytes → SignOut) (key : Option K) (f : Bytes) (second : Bool) : Prop :=
  ∀ k, key = some k → sign k (verifyMessage f) = .ok (storedSignature f second)

/-- A successful write with keys stores signatures of the file, provided that OpenSSL never reports a failure
    with the return value 0.  (All other failures make the write fail.) -/
theorem write_signs_partial {K : Type} {ctz0 : Nat} (h0 : 8 ≤ ctz0) {key1 key2 : Option K} {ops : List (WOp K)} {e : WEnv K}
    {w : Writer K} {f : Bytes} (h : Written ctz0 key1 key2 ops e w f) (hs : ∀ k msg, e.sign k msg ≠ .early 0) :
    CarriesSignature e.sign key1 f false ∧ CarriesSignature e.sign key2 f true := by
  obtain ⟨w0, s, sig1, sig2, tail, db, -, vw, -, -, -, -, b1, n1, b2, n2, msg, hmsg, -, -, m1, m2, z1, z2, e1, e2, ⟨o1, k1, g1, q1⟩, o2, k2, g2, q2⟩ := written_view h0 h
  obtain ⟨hmsg', hlen, p1, p2⟩ := layout_message vw.layout
  rw [← hmsg] at hmsg'
  obtain ⟨hf, -, -, l1, l2⟩ := open_sigs vw.opened
  have sg1 : storedSignature f false = sig1 := by
    show (f.drop 72).take (field f 68 2) = sig1
    rw [← l1, vw.sig1.2, p1]
  have sg2 : storedSignature f true = sig2 := by
    show (f.drop 2120).take (field f 70 2) = sig2
    rw [← l2, vw.sig2.2, p2]
  have aux : ∀ (k : K) (o b : Bytes) (m n : Nat), signWith e.sign (some k) msg o m = .ok (b, n) → e.sign k msg = .ok (b.take n) := by
    intro k o b m n hw
    cases hk : e.sign k msg with
    | ok sg => rw [(signWith_ok hk hw).1]
    | early r =>
      exfalso
      have hr : r ≠ 0 := by rintro rfl; exact hs k msg hk
      unfold signWith createSignature at hw
      simp only [hk, if_neg hr] at hw
      cases hw
    | late =>
      exfalso
      unfold signWith createSignature at hw
      simp only [hk] at hw
      cases hw
  constructor
  · intro k hk
    rw [hk] at g1
    rw [hmsg', sg1, e1]
    exact aux k _ _ _ _ g1
  · intro k hk
    rw [hk] at g2
    rw [hmsg', sg2, e2]
    exact aux k _ _ _ _ g2

/-- Signing that fails with 0 before the first byte, as `EVP_DigestSignInit` may do (writer.c:574-579). -/
def failSign (_ : Byte) (_ : Bytes) : SignOut := .early 0

/-- The code violates the full claim: the write succeeds although nothing was signed, and the file claims to
    carry a signature of 2048 bytes. -/
theorem write_signs_violated : ∃ w f db, Written 32 (some 5) none [] (toyEnv failSign) w f ∧ dbOpen f = .ok db ∧
    (storedSignature f false).length = 2048 ∧ ¬ CarriesSignature failSign (some 5) f false := by
  obtain ⟨w, f, db, h1, h2, h3⟩ := signedAsk_written (e := toyEnv failSign) (key1 := some 5) (key2 := none)
    (q := fun f _ => some (storedSignature f false).length) (x := 2048) rfl (by decide +kernel)
  refine ⟨w, f, db, h1, h2, Option.some.inj h3, ?_⟩
  intro h
  exact absurd (h 5 rfl) (by simp [failSign])

end Loc.Props
