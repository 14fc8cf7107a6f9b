import Verif.Props.Lookup
import Verif.Props.Signature
/-
C95: the keys of a writer change nothing but the signatures.
-/
namespace Loc
open Spec

/-- Everything in a writer but keys and signatures. -/
def SameContent {K : Type} (w v : Writer K) : Prop :=
  w.pool = v.pool ∧ w.vendor = v.vendor ∧ w.description = v.description ∧ w.license = v.license ∧ w.networks = v.networks ∧
    w.ases = v.ases ∧ w.countries = v.countries

theorem sections_content {K : Type} {e e' : WEnv K} (he : e'.ctz0 = e.ctz0 ∧ e'.reread = e.reread ∧ e'.junk = e.junk ∧ e'.junkContinent = e.junkContinent)
    {w v : Writer K} (h : SameContent w v) :
    (∃ x, writeSections e w = .error x ∧ writeSections e' v = .error x) ∨
    ∃ s w1 v1, writeSections e w = .ok (s, w1) ∧ writeSections e' v = .ok (s, v1) ∧ SameContent w1 v1 ∧
      (w1.key1 = w.key1 ∧ w1.key2 = w.key2 ∧ v1.key1 = v.key1 ∧ v1.key2 = v.key2) := by
  obtain ⟨h1, h2, h3, h4, h5, h6, h7⟩ := h
  obtain ⟨e1, e2, e3, e4⟩ := he
  unfold writeSections
  rw [e1, e2, e3, e4, ← h1, ← h5, ← h6, ← h7]
  simp only
  cases ha : writeAses (asListSort w.ases) w.pool with
  | error x => exact .inl ⟨x, rfl, rfl⟩
  | ok r =>
    obtain ⟨asBytes, pool⟩ := r
    simp only
    cases ht : treeCleanup e.ctz0 e.reread w.networks with
    | error x => exact .inl ⟨x, rfl, rfl⟩
    | ok t =>
      simp only
      cases hb : bfsLoop (t.size + 1) [t] 0 0 with
      | error x => exact .inl ⟨x, rfl, rfl⟩
      | ok r =>
        obtain ⟨recs, nets⟩ := r
        simp only
        cases hc : writeCountries w.countries e.junkContinent pool with
        | error x => exact .inl ⟨x, rfl, rfl⟩
        | ok r =>
          obtain ⟨ct, pool'⟩ := r
          simp only
          exact .inr ⟨_, _, _, rfl, rfl, ⟨rfl, h2, h3, h4, rfl, rfl, rfl⟩, rfl, rfl, rfl, rfl⟩

theorem write_content {K : Type} {e e' : WEnv K}
    (he : e'.ctz0 = e.ctz0 ∧ e'.reread = e.reread ∧ e'.junk = e.junk ∧ e'.junkContinent = e.junkContinent)
    {w v : Writer K} (h : SameContent w v) {old : Bytes} {version : Nat} {w' v' : Writer K} {f g : Option Bytes}
    (hw : writerWrite e w old version = .ok (w', f)) (hv : writerWrite e' v old version = .ok (v', g)) : SameContent w' v' := by
  unfold writerWrite at hw hv
  cases hx : writeVersion version with
  | error x => rw [hx] at hw hv; cases hw; cases hv; exact h
  | ok u =>
    rw [hx] at hw hv
    simp only at hw hv
    rcases sections_content he h with ⟨x, s1, s2⟩ | ⟨s, w1, v1, s1, s2, s3, -⟩
    · rw [s1] at hw; cases hw
    · rw [s1] at hw
      rw [s2] at hv
      simp only at hw hv
      have fin : ∀ {e : WEnv K} {w w' : Writer K} {o : Option Bytes} {msg : Bytes} {F : Bytes → Nat → Bytes → Nat → Option Bytes},
          (match signWith e.sign w.key1 msg w.sig1 w.sig1Len with
            | .error _ => (.ok (w, none) : Res (Writer K × Option Bytes))
            | .ok (sig1, len1) =>
              match signWith e.sign w.key2 msg w.sig2 w.sig2Len with
              | .error _ => .ok (w, none)
              | .ok (sig2, len2) => .ok ({ w with sig1 := sig1, sig1Len := len1, sig2 := sig2, sig2Len := len2 }, F sig1 len1 sig2 len2)) =
            .ok (w', o) → SameContent w w' := by
        intro e w w' o msg F hh
        split at hh
        · cases hh; exact ⟨rfl, rfl, rfl, rfl, rfl, rfl, rfl⟩
        · split at hh
          · cases hh; exact ⟨rfl, rfl, rfl, rfl, rfl, rfl, rfl⟩
          · cases hh; exact ⟨rfl, rfl, rfl, rfl, rfl, rfl, rfl⟩
      have a := fin (e := e) (w := w1) (F := fun a b c d => some _) hw
      have b := fin (e := e') (w := v1) (F := fun a b c d => some _) hv
      obtain ⟨a1, a2, a3, a4, a5, a6, a7⟩ := a
      obtain ⟨b1, b2, b3, b4, b5, b6, b7⟩ := b
      obtain ⟨c1, c2, c3, c4, c5, c6, c7⟩ := s3
      exact ⟨a1.symm.trans (c1.trans b1), a2.symm.trans (c2.trans b2), a3.symm.trans (c3.trans b3), a4.symm.trans (c4.trans b4),
        a5.symm.trans (c5.trans b5), a6.symm.trans (c6.trans b6), a7.symm.trans (c7.trans b7)⟩

theorem wstep_content {K : Type} {w v : Writer K} (h : SameContent w v) {op : WOp K} {w' v' : Writer K}
    (hw : wstep w op = .ok w') (hv : wstep v op = .ok v') : SameContent w' v' := by
  obtain ⟨h1, h2, h3, h4, h5, h6, h7⟩ := h
  have h0 : SameContent w v := ⟨h1, h2, h3, h4, h5, h6, h7⟩
  unfold wstep at hw hv
  cases op with
  | vendor s =>
    cases s with
    | none => cases hw; cases hv; exact h0
    | some s =>
      simp only [setVendor, ← h1] at hw hv
      cases hp : poolAdd w.pool s with
      | error x =>
        rw [hp] at hw hv
        cases x <;> cases hw <;> cases hv
        exact h0
      | ok r => rw [hp] at hw hv; cases hw; cases hv; exact ⟨rfl, rfl, h3, h4, h5, h6, h7⟩
  | description s =>
    cases s with
    | none => cases hw; cases hv; exact h0
    | some s =>
      simp only [setDescription, ← h1] at hw hv
      cases hp : poolAdd w.pool s with
      | error x =>
        rw [hp] at hw hv
        cases x <;> cases hw <;> cases hv
        exact h0
      | ok r => rw [hp] at hw hv; cases hw; cases hv; exact ⟨rfl, h2, rfl, h4, h5, h6, h7⟩
  | license s =>
    cases s with
    | none => cases hw; cases hv; exact h0
    | some s =>
      simp only [setLicense, ← h1] at hw hv
      cases hp : poolAdd w.pool s with
      | error x =>
        rw [hp] at hw hv
        cases x <;> cases hw <;> cases hv
        exact h0
      | ok r => rw [hp] at hw hv; cases hw; cases hv; exact ⟨rfl, h2, h3, rfl, h5, h6, h7⟩
  | addAs number name =>
    cases hw; cases hv
    exact ⟨h1, h2, h3, h4, h5, congrArg (asListAppend · _) h6, h7⟩
  | renameAs number name =>
    cases hw; cases hv
    exact ⟨h1, h2, h3, h4, h5, congrArg (List.map _ ·) h6, h7⟩
  | addCountry code continent name =>
    simp only [addCountry] at hw hv
    cases hp : countryNew code with
    | error x =>
      rw [hp] at hw hv
      cases x <;> cases hw <;> cases hv
      exact h0
    | ok c => rw [hp] at hw hv; cases hw; cases hv; exact ⟨h1, h2, h3, h4, h5, h6, congrArg (countryListAppend · _) h7⟩
  | addNetwork n =>
    simp only [addNetwork, ← h5] at hw hv
    cases hp : treeAdd w.networks n with
    | error x => rw [hp] at hw; cases hw
    | ok r => rw [hp] at hw hv; cases hw; cases hv; exact ⟨h1, h2, h3, h4, rfl, h6, h7⟩
  | changeNetwork n n' =>
    cases hw; cases hv
    exact ⟨h1, h2, h3, h4, congrArg (Tree.replace n n') h5, h6, h7⟩
  | write e old version =>
    simp only at hw hv
    cases hp : writerWrite e w old version with
    | error x => rw [hp] at hw; cases hw
    | ok r =>
      cases hq : writerWrite e v old version with
      | error x => rw [hq] at hv; cases hv
      | ok r' =>
        rw [hp] at hw
        rw [hq] at hv
        cases hw; cases hv
        exact write_content ⟨rfl, rfl, rfl, rfl⟩ h0 hp hq

theorem wrun_content {K : Type} : ∀ (ops : List (WOp K)) {w v w' v' : Writer K}, SameContent w v → wrun w ops = .ok w' → wrun v ops = .ok v' → SameContent w' v'
  | [], _, _, _, _, h, hw, hv => by cases hw; cases hv; exact h
  | op :: ops, w, v, w', v', h, hw, hv => by
    unfold wrun at hw hv
    cases hp : wstep w op with
    | error x => rw [hp] at hw; cases hw
    | ok w1 =>
      cases hq : wstep v op with
      | error x => rw [hq] at hv; cases hv
      | ok v1 =>
        rw [hp] at hw
        rw [hq] at hv
        exact wrun_content ops (wstep_content h hp hq) hw hv

theorem writes_content {K : Type} {ctz0 : Nat} {key1 key2 key1' key2' : Option K} {ops : List (WOp K)} {w v : Writer K}
    (hw : Writes ctz0 key1 key2 ops w) (hv : Writes ctz0 key1' key2' ops v) : SameContent w v := by
  obtain ⟨-, w0, a1, a2⟩ := hw
  obtain ⟨-, v0, b1, b2⟩ := hv
  refine wrun_content ops ?_ a2 b2
  unfold writerNew at a1 b1
  cases hp : poolAdd poolNew [] with
  | error x => rw [hp] at a1; cases a1
  | ok r =>
    rw [hp] at a1 b1
    cases a1; cases b1
    exact ⟨rfl, rfl, rfl, rfl, rfl, rfl, rfl⟩

/-- Two written files: same sections, header and rest. -/
theorem content_layouts {K : Type} {ctz0 : Nat} {key1 key2 key1' key2' : Option K} {ops : List (WOp K)} {w v : Writer K}
    (hw : Writes ctz0 key1 key2 ops w) (hv : Writes ctz0 key1' key2' ops v) {e : WEnv K} {sign' : K → Bytes → SignOut} (he : e.ctz0 = ctz0)
    {old : Bytes} {version version' : Nat} {w' v' : Writer K} {f g : Bytes}
    (h1 : writerWrite e w old version = .ok (w', some f)) (h2 : writerWrite { e with sign := sign' } v old version' = .ok (v', some g)) :
    (∃ s h sig1 sig2 sig1' sig2' tail, Layout f s h sig1 sig2 tail ∧ Layout g s h sig1' sig2' tail) ∧ w'.networks = v'.networks ∧
      w'.countries = v'.countries := by
  have hc := writes_content hw hv
  have iw := winv hw
  have iv := winv hv
  have he' : ({ e with sign := sign' } : WEnv K).ctz0 = ctz0 := he
  rcases writerWrite_cases h1 with ⟨-, hf⟩ | ⟨s, w1, hs, ⟨-, hf⟩ | ⟨sig1, len1, sig2, len2, msg, rest, hrest, -, e1, e2, hw', hf⟩⟩
  · cases hf
  · cases hf
  rcases writerWrite_cases h2 with ⟨-, hf'⟩ | ⟨s', v1, hs', ⟨-, hf'⟩ | ⟨sig1', len1', sig2', len2', msg', rest', hrest', -, e1', e2', hv', hf'⟩⟩
  · cases hf'
  · cases hf'
  have q1 := writeSections_inv iw he hs
  have q2 := writeSections_inv iv he' hs'
  obtain ⟨a1, a2, -⟩ := signWith_spec q1.s1 q1.l1 (fun hk => q1.z1 (q1.k1 ▸ hk)) e1
  obtain ⟨b1, b2, -⟩ := signWith_spec q1.s2 q1.l2 (fun hk => q1.z2 (q1.k2 ▸ hk)) e2
  obtain ⟨c1, c2, -⟩ := signWith_spec q2.s1 q2.l1 (fun hk => q2.z1 (q2.k1 ▸ hk)) e1'
  obtain ⟨d1, d2, -⟩ := signWith_spec q2.s2 q2.l2 (fun hk => q2.z2 (q2.k2 ▸ hk)) e2'
  rcases sections_content (e := e) (e' := { e with sign := sign' }) ⟨rfl, rfl, rfl, rfl⟩ hc with ⟨x, s1, -⟩ | ⟨s0, w0, v0, s1, s2, s3, -⟩
  · rw [s1] at hs; cases hs
  rw [s1] at hs
  rw [s2] at hs'
  cases hs; cases hs'
  simp only [Option.some.injEq] at hf hf'
  have hm : makeHeader { e with sign := sign' } v1 s = makeHeader e w1 s := by
    obtain ⟨-, x2, x3, x4, -⟩ := s3
    unfold makeHeader
    rw [x2, x3, x4]
  refine ⟨⟨s, makeHeader e w1 s, sig1.take len1, sig2.take len2, sig1'.take len1', sig2'.take len2', old.drop (magicSize + headerSize + (bodyBytes s).length),
    ⟨by rw [hf, hrest], by simp; omega, by simp; omega⟩, ⟨by rw [hf', hrest', hm], by simp; omega, by simp; omega⟩⟩, ?_⟩
  rw [hw', hv']
  exact ⟨s3.2.2.2.2.1, s3.2.2.2.2.2.2⟩

/-- Databases with the same networks answer every lookup the same way. -/
theorem lookup_same {db db' : Db} {t : Tree} (h : Holds db t) (h' : Holds db' t) (a : Addr) : lookup db a = lookup db' a := by
  obtain ⟨p1, p2⟩ := lookup_spec h a
  obtain ⟨q1, q2⟩ := lookup_spec h' a
  cases hx : ex t (bits a) with
  | true => rw [p1 hx, q1 hx]
  | false =>
    obtain ⟨u, u1, u2, u3, u4, u5⟩ := p2 hx
    obtain ⟨v, v1, v2, v3, v4, v5⟩ := q2 hx
    have key : ∀ {u v : List Bool}, u <+: bits a → v <+: bits a → ex t v = true → ex t ((bits a).take (u.length + 1)) = false → v.length ≤ u.length := by
      intro u v _ v1 v3 u4
      by_contra hl
      have : (bits a).take (u.length + 1) <+: v := by
        rw [List.prefix_iff_eq_take.mp v1]
        exact List.take_prefix_take_left (by omega)
      rw [ex_prefix this v3] at u4
      cases u4
    have hl : u.length = v.length := Nat.le_antisymm (key v1 u1 u3 v4) (key u1 v1 v3 u4)
    have huv : u = v := by rw [List.prefix_iff_eq_take.mp u1, List.prefix_iff_eq_take.mp v1, hl]
    rw [u5, v5, huv]

end Loc

namespace Loc.Props
open Loc Loc.Spec

/-! ## C95 -/

/-- The same calls on two writers with different keys (or none), written at the same time to files with the same
    former content: both files have the same length and differ only in the two signatures and their lengths (bytes
    68 to 4167), so that the same message is signed and verified. -/
theorem keys_only_signatures {K : Type} {ctz0 : Nat} {key1 key2 key1' key2' : Option K} {ops : List (WOp K)} {w v : Writer K}
    (hw : Writes ctz0 key1 key2 ops w) (hv : Writes ctz0 key1' key2' ops v) {e : WEnv K} {sign' : K → Bytes → SignOut} (he : e.ctz0 = ctz0)
    {old : Bytes} {version version' : Nat} {w' v' : Writer K} {f g : Bytes}
    (h1 : writerWrite e w old version = .ok (w', some f)) (h2 : writerWrite { e with sign := sign' } v old version' = .ok (v', some g)) :
    f.length = g.length ∧ (∀ i, i < 68 ∨ 4168 ≤ i → f[i]? = g[i]?) ∧ verifyMessage f = verifyMessage g := by
  obtain ⟨⟨s, h, sig1, sig2, sig1', sig2', tail, l1, l2⟩, -⟩ := content_layouts hw hv he h1 h2
  obtain ⟨m1, n1, -⟩ := layout_message l1
  obtain ⟨m2, n2, -⟩ := layout_message l2
  have hm : verifyMessage f = verifyMessage g := m1.trans m2.symm
  obtain ⟨r1, r2⟩ := (verify_message_covers f g n1 n2).mp hm
  exact ⟨r1, r2, hm⟩

/-- Every lookup gives the same answer in both files. -/
theorem keys_same_lookups {K : Type} {ctz0 : Nat} (h0 : 8 ≤ ctz0) {key1 key2 key1' key2' : Option K} {ops : List (WOp K)} {w v : Writer K}
    (hw : Writes ctz0 key1 key2 ops w) (hv : Writes ctz0 key1' key2' ops v) {e : WEnv K} {sign' : K → Bytes → SignOut} (he : e.ctz0 = ctz0)
    {old : Bytes} {version version' : Nat} {w' v' : Writer K} {f g : Bytes}
    (h1 : writerWrite e w old version = .ok (w', some f)) (h2 : writerWrite { e with sign := sign' } v old version' = .ok (v', some g))
    (hl : f.length < 2 ^ 32) :
    ∃ db db', dbOpen f = .ok db ∧ dbOpen g = .ok db' ∧ ∀ a, lookup db a = lookup db' a := by
  obtain ⟨-, hn, -⟩ := content_layouts hw hv he h1 h2
  have hlen := (keys_only_signatures hw hv he h1 h2).1
  obtain ⟨db, o1, a1⟩ := written_holds h0 ⟨w, old, version, hw, he, h1, hl⟩
  obtain ⟨db', o2, a2⟩ := written_holds (e := { e with sign := sign' }) h0 ⟨v, old, version', hv, he, h2, hlen ▸ hl⟩
  rw [← hn] at a2
  exact ⟨db, db', o1, o2, fun a => lookup_same a1 a2 a⟩

theorem getCountryLoop_congr {db db' : Db} (h : ∀ i, fetchCountry db i = fetchCountry db' i) (code : CStr) (fuel : Nat) :
    ∀ lo hi, getCountryLoop db code fuel lo hi = getCountryLoop db' code fuel lo hi := by
  induction fuel with
  | zero => intro lo hi; rfl
  | succ fuel ih => intro lo hi; simp only [getCountryLoop, h, ih]

/-- So do all questions for ASes, countries and metadata. -/
theorem keys_same_answers {K : Type} {ctz0 : Nat} (h0 : 8 ≤ ctz0) {key1 key2 key1' key2' : Option K} {ops : List (WOp K)} {w v : Writer K}
    (hw : Writes ctz0 key1 key2 ops w) (hv : Writes ctz0 key1' key2' ops v) {e : WEnv K} {sign' : K → Bytes → SignOut} (he : e.ctz0 = ctz0)
    {old : Bytes} {version version' : Nat} {w' v' : Writer K} {f g : Bytes}
    (h1 : writerWrite e w old version = .ok (w', some f)) (h2 : writerWrite { e with sign := sign' } v old version' = .ok (v', some g))
    (hl : f.length < 2 ^ 32) :
    ∃ db db', dbOpen f = .ok db ∧ dbOpen g = .ok db' ∧ (∀ number, getAs db number = getAs db' number) ∧
      (∀ code, getCountry db code = getCountry db' code) ∧ dbVendor db = dbVendor db' ∧ dbDescription db = dbDescription db' ∧
      dbLicense db = dbLicense db' ∧ db.createdAt = db'.createdAt := by
  obtain ⟨-, -, hn⟩ := content_layouts hw hv he h1 h2
  have hlen := (keys_only_signatures hw hv he h1 h2).1
  have hf : Written ctz0 key1 key2 ops e w' f := ⟨w, old, version, hw, he, h1, hl⟩
  have hg : Written ctz0 key1' key2' ops { e with sign := sign' } v' g := ⟨v, old, version', hv, he, h2, hlen ▸ hl⟩
  obtain ⟨_, s, _, _, _, db, -, x, -⟩ := written_view h0 hf
  obtain ⟨_, s', _, _, _, db', -, y, -⟩ := written_view h0 hg
  obtain ⟨d1, o1, a1⟩ := as_roundtrip h0 hf
  obtain ⟨d2, o2, a2⟩ := as_roundtrip h0 hg
  obtain ⟨d3, o3, b1, b2, b3, -⟩ := metadata_roundtrip h0 hf
  obtain ⟨d4, o4, c1, c2, c3, -⟩ := metadata_roundtrip h0 hg
  rw [x.opened] at o1 o3
  rw [y.opened] at o2 o4
  cases o1; cases o2; cases o3; cases o4
  have hcount : db.countryCount = db'.countryCount := by rw [x.countryCount, y.countryCount, hn]
  have hfetch : ∀ i, fetchCountry db i = fetchCountry db' i := by
    intro i
    by_cases hi : db.countryCount ≤ i
    · rw [fetchCountry, if_pos hi, fetchCountry, if_pos (hcount ▸ hi)]
    · have hlt : i < (leaked e.junkContinent w'.countries).length := by
        rw [leaked_length, ← x.countryCount]; omega
      have hget := List.getElem?_eq_getElem hlt
      rw [x.countries i _ hget]
      exact (y.countries i _ (by rw [← hn]; exact hget)).symm
  refine ⟨db, db', x.opened, y.opened, fun number => by rw [a1, a2], fun code => ?_, by rw [b1, c1], by rw [b2, c2], by rw [b3, c3],
    by rw [x.created, y.created]⟩
  unfold getCountry
  split
  · rfl
  · cases code with
    | none => rfl
    | some c => simp only; rw [hcount]; exact getCountryLoop_congr hfetch c _ _ _

/-! Example: 10.0.0.0/8 written without keys and with the keys 5 and 7. -/

def keyOps : List (WOp Byte) := [.addNetwork net10_8]

/-- The writer before and after writing, and the file. -/
def keyRun (key1 key2 : Option Byte) : Option (Writer Byte × Writer Byte × Bytes) :=
  match writerNew key1 key2 with
  | .error _ => none
  | .ok w0 => match wrun w0 keyOps with
    | .error _ => none
    | .ok w => match writerWrite (toyEnv toySign) w [] 1 with
      | .ok (w', some f) => some (w, w', f)
      | _ => none

theorem keyRun_spec {key1 key2 : Option Byte} {w w' : Writer Byte} {f : Bytes} (h : keyRun key1 key2 = some (w, w', f)) :
    Writes 32 key1 key2 keyOps w ∧ writerWrite (toyEnv toySign) w [] 1 = .ok (w', some f) := by
  unfold keyRun at h
  split at h
  · cases h
  rename_i w0 h0
  split at h
  · cases h
  rename_i w1 h1
  split at h
  · rename_i w2 f2 h2
    cases h
    refine ⟨⟨?_, w0, h0, h1⟩, h2⟩
    intro op hop
    rw [keyOps, List.mem_singleton] at hop
    subst hop
    exact net10_8_built 32
  · cases h

/-- The files meet the hypotheses; they are different and hold one network each. -/
example : ∃ w v w' v' f g, Writes 32 none none keyOps w ∧ Writes 32 (some 5) (some 7) keyOps v ∧
    writerWrite (toyEnv toySign) w [] 1 = .ok (w', some f) ∧ writerWrite { toyEnv toySign with sign := toySign } v [] 1 = .ok (v', some g) ∧
    f.length < 2 ^ 32 ∧ f ≠ g ∧ w'.networks.networks = [net10_8] := by
  have key : ∃ r ∈ keyRun none none, ∃ q ∈ keyRun (some 5) (some 7), r.2.2.length < 2 ^ 32 ∧ r.2.2 ≠ q.2.2 ∧ r.2.1.networks.networks = [net10_8] := by
    cases h1 : keyRun none none with
    | none => exact absurd h1 (by
        have : (keyRun none none).isSome = true := by decide +kernel
        intro h; rw [h] at this; cases this)
    | some r =>
      cases h2 : keyRun (some 5) (some 7) with
      | none => exact absurd h2 (by
          have : (keyRun (some 5) (some 7)).isSome = true := by decide +kernel
          intro h; rw [h] at this; cases this)
      | some q =>
        have a : ((keyRun none none).map fun r => r.2.2.length < 2 ^ 32 && decide (r.2.1.networks.networks = [net10_8])) = some true := by decide +kernel
        have b : ((keyRun none none).map (·.2.2)) ≠ ((keyRun (some 5) (some 7)).map (·.2.2)) := by decide +kernel
        rw [h1] at a b
        rw [h2] at b
        simp only [Option.map_some, Option.some.injEq, Bool.and_eq_true, decide_eq_true_eq] at a
        exact ⟨r, rfl, q, rfl, a.1, fun h => b (congrArg some h), a.2⟩
  obtain ⟨⟨w, w', f⟩, h1, ⟨v, v', g⟩, h2, h3, h4, h5⟩ := key
  obtain ⟨a1, a2⟩ := keyRun_spec h1
  obtain ⟨b1, b2⟩ := keyRun_spec h2
  exact ⟨w, v, w', v', f, g, a1, b1, a2, b2, h3, h4, h5⟩

end Loc.Props
