import Verif.Lemmas.View
/-
Consequences of the reader's view: binary searches, totality of writing.
-/
namespace Loc
open Spec

/-- Everything there is to know about a written file. -/
theorem written_view {K : Type} {ctz0 : Nat} (h0 : 8 ≤ ctz0) {key1 key2 : Option K} {ops : List (WOp K)} {e : WEnv K}
    {w' : Writer K} {f : Bytes} (h : Written ctz0 key1 key2 ops e w' f) :
    ∃ w s sig1 sig2 tail db, Writes ctz0 key1 key2 ops w ∧ View e w' s sig1 sig2 tail f db ∧ WInv ctz0 key1 key2 ops w' ∧
      w'.ases = asListSort w.ases ∧ w'.countries = w.countries ∧
      treeCleanup e.ctz0 e.reread w.networks = .ok w'.networks ∧
      ∃ b1 n1 b2 n2 msg, msg = magic ++ headerBytes (makeHeader e w' s) [] [] ++ (bodyBytes s ++ tail) ∧
        b1.length = sigMax ∧ b2.length = sigMax ∧ n1 ≤ sigMax ∧ n2 ≤ sigMax ∧
        (key1 = none → n1 = 0) ∧ (key2 = none → n2 = 0) ∧
        sig1 = b1.take n1 ∧ sig2 = b2.take n2 ∧
        (∃ o m, signWith e.sign key1 msg o m = .ok (b1, n1) ∧ o.length = sigMax) ∧
        (∃ o m, signWith e.sign key2 msg o m = .ok (b2, n2) ∧ o.length = sigMax) := by
  obtain ⟨w, old, version, hw, he, hwr, hlen⟩ := h
  have hi := winv hw
  rcases writerWrite_cases hwr with ⟨-, hf⟩ | ⟨s, w1, hs, ⟨-, hf⟩ | ⟨sig1, len1, sig2, len2, msg, rest, hrest, hmsg, e1, e2, hw', hf⟩⟩
  · cases hf
  · cases hf
  have h1 := writeSections_inv hi he hs
  obtain ⟨a1, a2, a3⟩ := signWith_spec h1.s1 h1.l1 (fun hk => h1.z1 (h1.k1 ▸ hk)) e1
  obtain ⟨b1, b2, b3⟩ := signWith_spec h1.s2 h1.l2 (fun hk => h1.z2 (h1.k2 ▸ hk)) e2
  simp only [Option.some.injEq] at hf
  obtain ⟨db, v⟩ := write_view h0 hi he hs (sig1 := sig1.take len1) (sig2 := sig2.take len2)
    (tail := old.drop (magicSize + headerSize + (bodyBytes s).length)) (by simp; omega) (by simp; omega)
    (by rw [hf, hrest]) hlen
  have hinv := winv_write hi he hwr
  have hparts : w1.ases = asListSort w.ases ∧ w1.countries = w.countries ∧ treeCleanup e.ctz0 e.reread w.networks = .ok w1.networks := by
    unfold writeSections at hs
    simp only at hs
    split at hs
    · cases hs
    split at hs
    · cases hs
    rename_i t ht
    split at hs
    · cases hs
    split at hs
    · cases hs
    cases hs
    exact ⟨rfl, rfl, ht⟩
  refine ⟨w, s, _, _, old.drop (magicSize + headerSize + (bodyBytes s).length), db, hw, ?_, hinv, ?_, ?_, ?_, sig1, len1, sig2, len2, msg, ?_, a1, b1, a2, b2, ?_, ?_, rfl, rfl, ?_, ?_⟩
  · subst hw'
    exact ⟨v.layout, v.opened, v.file, v.created, v.strings, v.vendor, v.description, v.license, v.poolOff, v.poolLen, v.asCount, v.ases,
      v.countryCount, v.countries, v.tree, v.lens, v.sig1, v.sig2⟩
  · rw [hw']; exact hparts.1
  · rw [hw']; exact hparts.2.1
  · rw [hw']; exact hparts.2.2
  · rw [hmsg, hrest, hw']; rfl
  · intro hk; exact a3 (h1.k1.trans hk)
  · intro hk; exact b3 (h1.k2.trans hk)
  · exact ⟨w1.sig1, w1.sig1Len, by rw [← h1.k1]; exact e1, h1.s1⟩
  · exact ⟨w1.sig2, w1.sig2Len, by rw [← h1.k2]; exact e2, h1.s2⟩

/-! ### Binary search -/

theorem mid_bounds {lo hi : Int} (h : lo ≤ hi) : lo ≤ (lo + hi) / 2 ∧ (lo + hi) / 2 ≤ hi := by omega

/-- The binary search over a section whose entries are sorted by number. -/
theorem getAsLoop_spec {db : Db} {l : List AS} (hl : ∀ (i : Nat) (a : AS), l[i]? = some a → fetchAs db i = .ok (some ⟨a.number, some (a.name.getD [])⟩))
    (hs : l.Pairwise (fun x y => x.number < y.number)) (k : BitVec 32) : ∀ (fuel : Nat) (lo hi : Int),
    0 ≤ lo → hi < l.length → lo ≤ hi + 1 → hi - lo + 1 < fuel →
    (∀ (i : Nat) (a : AS), l[i]? = some a → a.number = k → lo ≤ i ∧ (i : Int) ≤ hi) →
    (∃ a ∈ l, a.number = k ∧ getAsLoop db k fuel lo hi = .ok (some ⟨k, some (a.name.getD [])⟩)) ∨
    ((∀ a ∈ l, a.number ≠ k) ∧ getAsLoop db k fuel lo hi = .ok none) := by
  intro fuel
  induction fuel with
  | zero => intro lo hi h1 h2 h3 h4; omega
  | succ fuel ih =>
    intro lo hi h1 h2 h3 h4 h5
    unfold getAsLoop
    by_cases hle : lo ≤ hi
    · rw [if_pos hle]
      obtain ⟨m1, m2⟩ := mid_bounds hle
      generalize (lo + hi) / 2 = m at m1 m2 ⊢
      have hm : m.toNat < l.length := by omega
      have hmi : (m.toNat : Int) = m := by omega
      have hget := List.getElem?_eq_getElem hm
      generalize ha : l[m.toNat] = a at hget
      have hp := List.pairwise_iff_getElem.mp hs
      simp only [hl _ _ hget]
      by_cases e1 : a.number = k
      · rw [if_pos e1]
        left
        exact ⟨a, List.mem_of_getElem? hget, e1, by rw [e1]⟩
      · rw [if_neg e1]
        by_cases e2 : a.number < k
        · rw [if_pos e2]
          refine ih _ _ (by omega) h2 (by omega) (by omega) ?_
          intro i b hb hbk
          obtain ⟨hi', rfl⟩ := List.getElem?_eq_some_iff.mp hb
          have hold := h5 i _ hb hbk
          refine ⟨?_, hold.2⟩
          by_cases hc : i < m.toNat
          · have := hp i m.toNat hi' hm hc
            rw [hbk, ha] at this
            simp only [BitVec.lt_def] at this e2
            omega
          · by_cases hc' : i = m.toNat
            · subst hc'; rw [ha] at hbk; exact absurd hbk e1
            · omega
        · rw [if_neg e2]
          refine ih _ _ h1 (by omega) (by omega) (by omega) ?_
          intro i b hb hbk
          obtain ⟨hi', rfl⟩ := List.getElem?_eq_some_iff.mp hb
          have hold := h5 i _ hb hbk
          refine ⟨hold.1, ?_⟩
          by_cases hc : m.toNat < i
          · have := hp m.toNat i hm hi' hc
            rw [hbk, ha] at this
            exact absurd this e2
          · by_cases hc' : i = m.toNat
            · subst hc'; rw [ha] at hbk; exact absurd hbk e1
            · omega
    · rw [if_neg hle]
      right
      refine ⟨?_, rfl⟩
      intro a ha e
      obtain ⟨i, hi', rfl⟩ := List.getElem_of_mem ha
      have := h5 i _ (List.getElem?_eq_getElem hi') e
      omega

/-! ### Writing does not fail when strings are short -/

theorem poolAdd_total {p : Pool} {ss : List CStr} (hp : PoolOk p ss) (hsz : p.data.length ≤ p.size) {s : CStr} (hs : NoNul s)
    (hl : s.length < 512 * 1024) : ∃ off p', poolAdd p s = .ok (off, p') := by
  rcases poolAdd_spec hp s hs with ⟨-, c, d, -, -, a3⟩ | ⟨-, q, -, -, -, a3⟩ | ⟨a1, -⟩
  · exact ⟨_, _, a3⟩
  · exact ⟨_, _, a3⟩
  · unfold poolBlock at a1; omega

theorem writeAses_total (l : List AS) : ∀ {p : Pool} {ss : List CStr}, PoolOk p ss → p.data.length ≤ p.size →
    (∀ a ∈ l, StrOk a.name) → (∀ a ∈ l, ShortStr a.name) → ∃ r, writeAses l p = .ok r := by
  induction l with
  | nil => intro p ss _ _ _ _; exact ⟨_, rfl⟩
  | cons a l ih =>
    intro p ss hp hsz hn hl
    have hn' : ∀ x ∈ l, StrOk x.name := fun x hx => hn x (by simp [hx])
    have hl' : ∀ x ∈ l, ShortStr x.name := fun x hx => hl x (by simp [hx])
    unfold writeAses asRecord
    cases h : a.name with
    | none =>
      obtain ⟨off, p', e⟩ := poolAdd_total hp hsz (s := []) (by simp [NoNul]) (by simp)
      obtain ⟨ss', q1, -, q2⟩ := poolAdd_inv hp hsz (by simp [NoNul]) e
      obtain ⟨r, hr⟩ := ih q1 q2 hn' hl'
      simp only [e, hr]
      exact ⟨_, rfl⟩
    | some s =>
      obtain ⟨off, p', e⟩ := poolAdd_total hp hsz (hn a (by simp) s h) (hl a (by simp) s h)
      obtain ⟨ss', q1, -, q2⟩ := poolAdd_inv hp hsz (hn a (by simp) s h) e
      obtain ⟨r, hr⟩ := ih q1 q2 hn' hl'
      simp only [e, hr]
      exact ⟨_, rfl⟩

theorem writeCountries_total (l : List Country) : ∀ {prev : Byte × Byte} {p : Pool} {ss : List CStr}, PoolOk p ss → p.data.length ≤ p.size →
    (∀ c ∈ l, StrOk c.name) → (∀ c ∈ l, ShortStr c.name) → ∃ r, writeCountries l prev p = .ok r := by
  induction l with
  | nil => intro prev p ss _ _ _ _; exact ⟨_, rfl⟩
  | cons c l ih =>
    intro prev p ss hp hsz hn hl
    have hn' : ∀ x ∈ l, StrOk x.name := fun x hx => hn x (by simp [hx])
    have hl' : ∀ x ∈ l, ShortStr x.name := fun x hx => hl x (by simp [hx])
    cases h : c.name with
    | none =>
      obtain ⟨r, hr⟩ := ih (prev := if c.k0 ≠ 0 then (c.k0, c.k1) else prev) hp hsz hn' hl'
      unfold writeCountries countryRecord
      simp only [h, hr]
      exact ⟨_, rfl⟩
    | some s =>
      obtain ⟨off, p', e⟩ := poolAdd_total hp hsz (hn c (by simp) s h) (hl c (by simp) s h)
      obtain ⟨ss', q1, -, q2⟩ := poolAdd_inv hp hsz (hn c (by simp) s h) e
      obtain ⟨r, hr⟩ := ih (prev := if c.k0 ≠ 0 then (c.k0, c.k1) else prev) q1 q2 hn' hl'
      unfold writeCountries countryRecord
      simp only [h, e, hr]
      exact ⟨_, rfl⟩

theorem asesOf_short {K : Type} (ops : List (WOp K)) (hs : ∀ op ∈ ops, ShortOp op) : ∀ k name, asesOf ops k = some name → ShortStr name := by
  have key : ∀ (l : List (WOp K)) (m : BitVec 32 → Option (Option CStr)), (∀ op ∈ l, ShortOp op) →
      (∀ k name, m k = some name → ShortStr name) → ∀ k name, l.foldl asStep m k = some name → ShortStr name := by
    intro l
    induction l with
    | nil => intro m _ hm; exact hm
    | cons op l ih =>
      intro m hl hm
      refine ih _ (fun x hx => hl x (by simp [hx])) ?_
      have hop := hl op (by simp)
      intro k name h
      unfold asStep at h
      split at h
      · split at h
        · cases h; exact hop
        · exact hm _ _ h
      · split at h
        · cases h; exact hop
        · exact hm _ _ h
      · exact hm _ _ h
  exact key ops _ hs (fun k name h => by cases h)

theorem countriesOf_short {K : Type} (ops : List (WOp K)) (hs : ∀ op ∈ ops, ShortOp op) : ∀ k cont name,
    countriesOf ops k = some (cont, name) → ShortStr name := by
  have key : ∀ (l : List (WOp K)) (m : CStr → Option (Option CStr × Option CStr)), (∀ op ∈ l, ShortOp op) →
      (∀ k cont name, m k = some (cont, name) → ShortStr name) → ∀ k cont name, l.foldl countryStep m k = some (cont, name) → ShortStr name := by
    intro l
    induction l with
    | nil => intro m _ hm; exact hm
    | cons op l ih =>
      intro m hl hm
      refine ih _ (fun x hx => hl x (by simp [hx])) ?_
      have hop := hl op (by simp)
      intro k cont name h
      unfold countryStep at h
      split at h
      · split at h
        · cases h; exact hop
        · exact hm _ _ _ h
      · exact hm _ _ _ h
  exact key ops _ hs (fun k cont name h => by cases h)

/-- Building the sections never fails. -/
theorem writeSections_total {K : Type} {ctz0 : Nat} (h0 : 8 ≤ ctz0) {key1 key2 : Option K} {ops : List (WOp K)} {w : Writer K}
    (h : WInv ctz0 key1 key2 ops w) (hs : ∀ op ∈ ops, ShortOp op) {e : WEnv K} (he : e.ctz0 = ctz0) :
    ∃ r, writeSections e w = .ok r := by
  obtain ⟨ss, p1, p2, p3, p4⟩ := h.pool
  have hperm := asListSort_perm w.ases
  have hnames : ∀ a ∈ asListSort w.ases, StrOk a.name := fun a ha => h.names a (hperm.subset ha)
  have hshort : ∀ a ∈ asListSort w.ases, ShortStr a.name := fun a ha =>
    asesOf_short ops hs _ _ ((h.ases a.number a.name).mp (hperm.subset ha))
  have cshort : ∀ c ∈ w.countries, ShortStr c.name := fun c hc =>
    countriesOf_short ops hs _ _ _ ((h.countries _ _ _).mp ⟨c, hc, rfl, rfl, rfl⟩)
  obtain ⟨⟨ab, q⟩, ha⟩ := writeAses_total _ p1 h.size hnames hshort
  obtain ⟨recs, s1, a1, a2, a3, a4, a5⟩ := writeAses_spec _ p1 hnames ha
  have hsz := writeAses_inv _ p1 h.size hnames ha
  obtain ⟨t', ht, -⟩ := Props.cleanup_preserves_lookup ctz0 h0 e.reread h.reach
  obtain ⟨rs, ns, hb, -⟩ := bfs_spec (ne_nil_of_reach h0 (Reach.cleanup h.reach ht))
  obtain ⟨⟨cb, q'⟩, hc⟩ := writeCountries_total w.countries (prev := e.junkContinent) a4 hsz (fun c hc => (h.cgood c hc).name) cshort
  unfold writeSections
  simp only [ha, he, ht, hb, hc]
  exact ⟨_, rfl⟩

theorem writerWrite_total {K : Type} {ctz0 : Nat} (h0 : 8 ≤ ctz0) {key1 key2 : Option K} {ops : List (WOp K)} {w : Writer K}
    (h : WInv ctz0 key1 key2 ops w) (hs : ∀ op ∈ ops, ShortOp op) {e : WEnv K} (he : e.ctz0 = ctz0) (old : Bytes) (v : Nat) :
    ∃ r, writerWrite e w old v = .ok r := by
  obtain ⟨⟨s, w1⟩, hr⟩ := writeSections_total h0 h hs he
  unfold writerWrite
  cases writeVersion v with
  | error x => exact ⟨_, rfl⟩
  | ok u =>
    simp only [hr]
    generalize magic ++ headerBytes (makeHeader e w1 s) [] [] ++ (bodyBytes s ++ List.drop (magicSize + headerSize + (bodyBytes s).length) old) = msg
    cases signWith e.sign w1.key1 msg w1.sig1 w1.sig1Len with
    | error x => exact ⟨_, rfl⟩
    | ok r1 =>
      simp only
      cases signWith e.sign w1.key2 msg w1.sig2 w1.sig2Len with
      | error x => exact ⟨_, rfl⟩
      | ok r2 => exact ⟨_, rfl⟩

theorem setStr_total {p : Pool} {ss : List CStr} (hp : PoolOk p ss) (hsz : p.data.length ≤ p.size) {s : Option CStr} (hs : StrOk s)
    (hl : ShortStr s) : s = none ∨ ∃ x off p', s = some x ∧ poolAdd p x = .ok (off, p') := by
  cases s with
  | none => exact .inl rfl
  | some x =>
    obtain ⟨off, p', e⟩ := poolAdd_total hp hsz (hs x rfl) (hl x rfl)
    exact .inr ⟨x, off, p', rfl, e⟩

theorem wstep_total {K : Type} {ctz0 : Nat} (h0 : 8 ≤ ctz0) {key1 key2 : Option K} {ops : List (WOp K)} {w : Writer K}
    (h : WInv ctz0 key1 key2 ops w) (hs : ∀ op ∈ ops, ShortOp op) {op : WOp K} (hop : OpOk ctz0 op) (hsh : ShortOp op) :
    ∃ w', wstep w op = .ok w' := by
  obtain ⟨ss, p1, -⟩ := h.pool
  cases op with
  | vendor s =>
    rcases setStr_total p1 h.size hop hsh with rfl | ⟨x, off, p', rfl, e⟩
    · exact ⟨_, rfl⟩
    · simp only [wstep, setVendor, e]; exact ⟨_, rfl⟩
  | description s =>
    rcases setStr_total p1 h.size hop hsh with rfl | ⟨x, off, p', rfl, e⟩
    · exact ⟨_, rfl⟩
    · simp only [wstep, setDescription, e]; exact ⟨_, rfl⟩
  | license s =>
    rcases setStr_total p1 h.size hop hsh with rfl | ⟨x, off, p', rfl, e⟩
    · exact ⟨_, rfl⟩
    · simp only [wstep, setLicense, e]; exact ⟨_, rfl⟩
  | addAs k s => exact ⟨_, rfl⟩
  | renameAs k s => exact ⟨_, rfl⟩
  | addCountry code cont name =>
    simp only [wstep, addCountry]
    cases hc : countryNew code with
    | error x =>
      unfold countryNew at hc
      split at hc
      · cases hc; exact ⟨_, rfl⟩
      · split at hc
        · cases hc
        · cases hc; exact ⟨_, rfl⟩
    | ok c => exact ⟨_, rfl⟩
  | addNetwork n =>
    obtain ⟨r, t', e, -⟩ := Props.add_network_set ctz0 h0 h.reach hop
    simp only [wstep, addNetwork, e]
    exact ⟨_, rfl⟩
  | changeNetwork n n' => exact ⟨_, rfl⟩
  | write e old v =>
    obtain ⟨r, hr⟩ := writerWrite_total h0 h hs hop old v
    simp only [wstep, hr]
    exact ⟨_, rfl⟩

theorem wrun_total {K : Type} {ctz0 : Nat} (h0 : 8 ≤ ctz0) {key1 key2 : Option K} (ops : List (WOp K)) : ∀ (done : List (WOp K)) (w : Writer K),
    WInv ctz0 key1 key2 done w → (∀ op ∈ done ++ ops, OpOk ctz0 op) → (∀ op ∈ done ++ ops, ShortOp op) → ∃ w', wrun w ops = .ok w' := by
  induction ops with
  | nil => intro done w _ _ _; exact ⟨w, rfl⟩
  | cons op ops ih =>
    intro done w hi ho hs
    obtain ⟨w1, h1⟩ := wstep_total h0 hi (fun x hx => hs x (by simp [hx])) (ho op (by simp)) (hs op (by simp))
    have hi1 := winv_step hi (ho op (by simp)) h1
    obtain ⟨w', h'⟩ := ih (done ++ [op]) w1 hi1 (fun x hx => ho x (by simpa using hx)) (fun x hx => hs x (by simpa using hx))
    exact ⟨w', by unfold wrun; rw [h1]; exact h'⟩

theorem writes_total {K : Type} {ctz0 : Nat} (h0 : 8 ≤ ctz0) (key1 key2 : Option K) (ops : List (WOp K)) (ho : ∀ op ∈ ops, OpOk ctz0 op)
    (hs : ∀ op ∈ ops, ShortOp op) : ∃ w, Writes ctz0 key1 key2 ops w := by
  obtain ⟨w0, hw0⟩ : ∃ w0, writerNew key1 key2 = .ok w0 := by
    obtain ⟨off, p', e⟩ := poolAdd_total (p := poolNew) (ss := []) ⟨rfl, by simp⟩ (by simp [poolNew]) (s := []) (by simp [NoNul]) (by simp)
    unfold writerNew
    rw [e]
    exact ⟨_, rfl⟩
  obtain ⟨w, hw⟩ := wrun_total h0 ops [] w0 (winv_new ctz0 key1 key2 hw0) (by simpa using ho) (by simpa using hs)
  exact ⟨w, ho, w0, hw0, hw⟩

/-- The length of a new file. -/
theorem length_new_file {K : Type} (e : WEnv K) (w : Writer K) (s : Sections) {sig1 sig2 : Bytes} (l1 : sig1.length ≤ sigMax) (l2 : sig2.length ≤ sigMax) :
    (magic ++ headerBytes (makeHeader e w s) sig1 sig2 ++ (bodyBytes s ++ [])).length = poolOffset s + s.pool.length := by
  simp only [List.length_append, length_headerBytes _ l1 l2, length_magic, bodyBytes, poolOffset, countryOffset, netOffset, treeOffset, asOffset, List.length_nil]
  omega

/-- Without keys a new file is written. -/
theorem written_of {K : Type} {ctz0 : Nat} {ops : List (WOp K)} {w : Writer K} (h : Writes ctz0 none none ops w) {e : WEnv K} (he : e.ctz0 = ctz0)
    {s : Sections} {w1 : Writer K} (hs : writeSections e w = .ok (s, w1)) (hl : poolOffset s + s.pool.length < 2 ^ 32) :
    ∃ f, Written ctz0 none none ops e w1 f := by
  have hi := writeSections_inv (winv h) he hs
  refine ⟨magic ++ headerBytes (makeHeader e w1 s) [] [] ++ (bodyBytes s ++ []), w, [], 0, h, he, ?_, ?_⟩
  · unfold writerWrite
    simp only [writeVersion, hs, hi.k1, hi.k2, signWith, hi.z1 rfl, hi.z2 rfl, List.take_zero, if_true, List.drop_nil]
    have a1 := hi.k1
    have a2 := hi.k2
    have a3 := hi.z1 rfl
    have a4 := hi.z2 rfl
    cases w1
    simp only at a1 a2 a3 a4
    subst a1 a2 a3 a4
    rfl
  · rw [length_new_file e w1 s (by simp) (by simp)]; exact hl

theorem joinStr_inj : ∀ (a b : List CStr), (∀ s ∈ a, NoNul s) → (∀ s ∈ b, NoNul s) → joinStr a = joinStr b → a = b := by
  intro a
  induction a with
  | nil =>
    intro b _ _ h
    cases b with
    | nil => rfl
    | cons s b => rw [joinStr_cons] at h; have := congrArg List.length h; simp [joinStr] at this
  | cons s a ih =>
    intro b ha hb h
    cases b with
    | nil => rw [joinStr_cons] at h; have := congrArg List.length h; simp [joinStr] at this
    | cons t b =>
      rw [joinStr_cons, joinStr_cons] at h
      have e : s = t := by
        rw [← takeWhile_nul (ha s (by simp)) (joinStr a), h, takeWhile_nul (hb t (by simp))]
      subst e
      have h' := List.append_cancel_left h
      simp only [List.cons.injEq, true_and] at h'
      rw [ih b (fun x hx => ha x (by simp [hx])) (fun x hx => hb x (by simp [hx])) h']

/-- Metadata strings are read back. -/
theorem view_strings {K : Type} {ctz0 : Nat} {key1 key2 : Option K} {ops : List (WOp K)} {e : WEnv K} {w : Writer K} {s : Sections}
    {sig1 sig2 tail f : Bytes} {db : Db} (v : View e w s sig1 sig2 tail f db) (hi : WInv ctz0 key1 key2 ops w) (hl : f.length < 2 ^ 32) :
    dbVendor db = .ok (some (lastSet vendorCall ops)) ∧ dbDescription db = .ok (some (lastSet descriptionCall ops)) ∧
    dbLicense db = .ok (some (lastSet licenseCall ops)) := by
  obtain ⟨ss, p1, p2, p3⟩ := v.strings
  obtain ⟨ss', q1, q2, q3, q4⟩ := hi.pool
  have heq := joinStr_inj _ _ p1.nul q1.nul (by rw [← p1.data, ← q1.data])
  rw [← heq] at q2 q3 q4
  have hpool : s.pool.length ≤ f.length := by
    obtain ⟨pre, hp, -⟩ := v.layout.pool
    rw [hp]; simp; omega
  have key : ∀ off x, At ([] :: ss) off x → dbString db (off % 2 ^ 32) = .ok (some x) := by
    intro off x h
    have := h.lt
    rw [← p2] at this
    rw [Nat.mod_eq_of_lt (by omega)]
    exact p3 off x h
  unfold dbVendor dbDescription dbLicense
  rw [v.vendor, v.description, v.license]
  exact ⟨key _ _ q2, key _ _ q3, key _ _ q4⟩

theorem Written.len {K : Type} {ctz0 : Nat} {key1 key2 : Option K} {ops : List (WOp K)} {e : WEnv K}
    {w' : Writer K} {f : Bytes} (h : Written ctz0 key1 key2 ops e w' f) : f.length < 2 ^ 32 := by
  obtain ⟨w, old, version, hw, he, hwr, hlen⟩ := h
  exact hlen

/-! ### Countries -/

/-- A two letter code as a number; alphabetical order is the order of these numbers. -/
theorem strcmp_codes (a b c d : Byte) :
    (strcmp [a, b] [c, d] = 0 ↔ a = c ∧ b = d) ∧
    (strcmp [a, b] [c, d] > 0 ↔ codeNumber [c, d] < codeNumber [a, b]) := by
  have l1 := a.isLt
  have l2 := b.isLt
  have l3 := c.isLt
  have l4 := d.isLt
  simp only [strcmp, codeNumber, List.foldl, BitVec.lt_def]
  have e1 : a = c ↔ a.toNat = c.toNat := BitVec.toNat_eq
  have e2 : b = d ↔ b.toNat = d.toNat := BitVec.toNat_eq
  rw [e1, e2]
  constructor
  · constructor
    · intro h
      split at h
      · cases h
      · split at h
        · cases h
        · split at h
          · cases h
          · split at h
            · cases h
            · omega
    · rintro ⟨h1, h2⟩
      rw [if_neg (by omega), if_neg (by omega), if_neg (by omega), if_neg (by omega)]
  · constructor
    · intro h
      split at h
      · cases h
      · split at h
        · omega
        · split at h
          · cases h
          · split at h
            · omega
            · cases h
    · intro h
      split
      · omega
      · split
        · decide
        · split
          · omega
          · split
            · decide
            · omega

/-- Whatever the order of the section, the search ends regularly, and what it finds is an entry with
    the code. -/
theorem getCountryLoop_sound {db : Db} {l : List Country} (hl : ∀ (i : Nat) (c : Country), l[i]? = some c → fetchCountry db i = .ok (some (storedCountry c)))
    (hg : ∀ c ∈ l, ccIsValid (some [c.c0, c.c1]) = true) (k : CStr) (hk : ccIsValid (some k) = true) : ∀ (fuel : Nat) (lo hi : Int),
    0 ≤ lo → hi < l.length → lo ≤ hi + 1 → hi - lo + 1 < fuel →
    (∃ c ∈ l, [c.c0, c.c1] = k ∧ getCountryLoop db k fuel lo hi = .ok (.found (storedCountry c))) ∨
    getCountryLoop db k fuel lo hi = .ok .missing := by
  obtain ⟨a, b, rfl, -⟩ := (ccIsValid_iff _).mp hk
  intro fuel
  induction fuel with
  | zero => intro lo hi h1 h2 h3 h4; omega
  | succ fuel ih =>
    intro lo hi h1 h2 h3 h4
    unfold getCountryLoop
    by_cases hle : lo ≤ hi
    · rw [if_pos hle]
      obtain ⟨m1, m2⟩ := mid_bounds hle
      generalize (lo + hi) / 2 = m at m1 m2 ⊢
      have hm : m.toNat < l.length := by omega
      have hget := List.getElem?_eq_getElem hm
      generalize ha : l[m.toNat] = c at hget
      have hc := hg c (List.mem_of_getElem? hget)
      have hnz := valid_ne_zero hc
      have hcode : countryGetCode (storedCountry c) = [c.c0, c.c1] := ccString_ne hnz.1 hnz.2
      simp only [hl _ _ hget, hcode]
      obtain ⟨s1, -⟩ := strcmp_codes a b c.c0 c.c1
      by_cases e1 : strcmp [a, b] [c.c0, c.c1] = 0
      · rw [if_pos e1]
        left
        obtain ⟨x1, x2⟩ := s1.mp e1
        exact ⟨c, List.mem_of_getElem? hget, by rw [x1, x2], rfl⟩
      · rw [if_neg e1]
        split
        · exact ih _ _ (by omega) h2 (by omega) (by omega)
        · exact ih _ _ h1 (by omega) (by omega) (by omega)
    · rw [if_neg hle]
      exact .inr rfl

/-- In a sorted section the search finds what is there. -/
theorem getCountryLoop_complete {db : Db} {l : List Country} (hl : ∀ (i : Nat) (c : Country), l[i]? = some c → fetchCountry db i = .ok (some (storedCountry c)))
    (hg : ∀ c ∈ l, ccIsValid (some [c.c0, c.c1]) = true) (hs : l.Pairwise (fun x y => codeNumber [x.c0, x.c1] < codeNumber [y.c0, y.c1]))
    (k : CStr) (hk : ccIsValid (some k) = true) : ∀ (fuel : Nat) (lo hi : Int),
    0 ≤ lo → hi < l.length → lo ≤ hi + 1 → hi - lo + 1 < fuel →
    (∃ (i : Nat) (c : Country), l[i]? = some c ∧ [c.c0, c.c1] = k ∧ lo ≤ i ∧ (i : Int) ≤ hi) →
    getCountryLoop db k fuel lo hi ≠ .ok .missing := by
  obtain ⟨a, b, rfl, -⟩ := (ccIsValid_iff _).mp hk
  have hp := List.pairwise_iff_getElem.mp hs
  intro fuel
  induction fuel with
  | zero => intro lo hi h1 h2 h3 h4; omega
  | succ fuel ih =>
    rintro lo hi h1 h2 h3 h4 ⟨i, d, hd, hdk, hi1, hi2⟩
    obtain ⟨hi', hd'⟩ := List.getElem?_eq_some_iff.mp hd
    unfold getCountryLoop
    have hle : lo ≤ hi := by omega
    rw [if_pos hle]
    obtain ⟨m1, m2⟩ := mid_bounds hle
    generalize (lo + hi) / 2 = m at m1 m2 ⊢
    have hm : m.toNat < l.length := by omega
    have hget := List.getElem?_eq_getElem hm
    generalize ha : l[m.toNat] = c at hget
    have hc := hg c (List.mem_of_getElem? hget)
    have hnz := valid_ne_zero hc
    have hcode : countryGetCode (storedCountry c) = [c.c0, c.c1] := ccString_ne hnz.1 hnz.2
    simp only [hl _ _ hget, hcode]
    obtain ⟨s1, s2⟩ := strcmp_codes a b c.c0 c.c1
    by_cases e1 : strcmp [a, b] [c.c0, c.c1] = 0
    · rw [if_pos e1]; intro h; cases h
    · rw [if_neg e1]
      have hne : i ≠ m.toNat := by
        rintro rfl
        have : d = c := by rw [← hd', ← ha]
        subst this
        simp only [List.cons.injEq, and_true] at hdk
        exact e1 (s1.mpr ⟨hdk.1.symm, hdk.2.symm⟩)
      by_cases e2 : strcmp [a, b] [c.c0, c.c1] > 0
      · rw [if_pos e2]
        refine ih _ _ (by omega) h2 (by omega) (by omega) ⟨i, d, hd, hdk, ?_, hi2⟩
        by_cases hlt : i < m.toNat
        · have := hp i m.toNat hi' hm hlt
          rw [hd', ha, hdk] at this
          have := s2.mp e2
          omega
        · omega
      · rw [if_neg e2]
        refine ih _ _ h1 (by omega) (by omega) (by omega) ⟨i, d, hd, hdk, hi1, ?_⟩
        by_cases hlt : m.toNat < i
        · have := hp m.toNat i hm hi' hlt
          rw [hd', ha, hdk] at this
          exact absurd (s2.mpr this) e2
        · omega

end Loc
