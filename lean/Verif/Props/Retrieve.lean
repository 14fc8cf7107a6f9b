import Verif.Lemmas.Retrieve
/-
C86: What importers read is the document of the server.  C87: Requests go out as their URL says.
-/
namespace Loc.Props
open Loc Loc.Spec

/-! ## C86 -/

/-- If the connection is not closed before the end of the document: the document is returned exactly if its end is seen in the
    reply, and nothing else is ever returned; it is decompressed exactly if the header or the first bytes tell so.
    Partial: connections that are closed early, see `retrieve_violated_cut`. -/
theorem retrieve_exact_partial {doc : Bytes} {r : HttpReply} (h : Delivers doc r) (hc : ¬ CutShort doc r) (t : Bool) (o : Retrieved) :
    retrieve r t = .ok o ↔ SeesEnd r ∧ o.data = doc ∧ (o.gzip = true ↔ ToldGzip r doc) := by
  by_cases he : SeesEnd r
  · have ha : r.arrived = doc := by
      unfold SeesEnd at he
      cases hf : r.framing with
      | sized n =>
        rw [hf] at he
        simp only at he
        rw [h.size n hf] at he
        exact h.part.eq_of_length_le he
      | chunked =>
        rw [hf] at he
        exact h.last hf he
      | untilClose =>
        rw [hf] at he
        exact Classical.byContradiction fun hne => hc ⟨by rw [hf]; simp, hne, he⟩
    rw [retrieve_ends t (.inl he), received_delivers h, ha]
    exact ⟨fun g => ⟨he, g⟩, fun g => g.2⟩
  · have hn : ¬ readsEnd r := by
      rintro (g | ⟨n, g1, g2, g3⟩)
      · exact he g
      · refine hc ⟨by rw [g1]; simp, ?_, g3⟩
        intro e
        rw [h.size n g1, e] at g2
        omega
    obtain ⟨x, hx⟩ := retrieve_fails t hn
    rw [hx]
    exact ⟨(fun g => by cases g), fun g => absurd g.1 he⟩

/-- Of chunked replies only whole documents are ever returned. -/
theorem retrieve_chunked {doc : Bytes} {r : HttpReply} (h : Delivers doc r) (hf : r.framing = .chunked) (t : Bool) {o : Retrieved}
    (ho : retrieve r t = .ok o) : o.data = doc :=
  ((retrieve_exact_partial h (fun g => g.1 hf) t o).mp ho).2.1

/-- Whatever happens, only a first part of the document is returned. -/
theorem retrieve_part {doc : Bytes} {r : HttpReply} (h : Delivers doc r) (t : Bool) {o : Retrieved} (ho : retrieve r t = .ok o) : o.data <+: doc := by
  by_cases he : readsEnd r
  · rw [((retrieve_ends t he o).mp ho).1, received_delivers h]
    exact h.part
  · obtain ⟨x, hx⟩ := retrieve_fails t he
    rw [hx] at ho; cases ho

/-- The reply that is cut behind `k` bytes. -/
def cutReply (type : Option CStr) (doc : Bytes) (k : Nat) : HttpReply := ⟨type, .sized doc.length, doc.take k, false, .closed⟩

/-- Wherever the connection is closed inside of a document of known length: the part that has arrived is returned as if it was
    the document, with or without a timeout. -/
theorem retrieve_violated_cut (type : Option CStr) (doc : Bytes) {k : Nat} (hk : k < doc.length) :
    Delivers doc (cutReply type doc k) ∧ CutShort doc (cutReply type doc k) ∧
    ∀ t, ∃ o, retrieve (cutReply type doc k) t = .ok o ∧ o.data = doc.take k ∧ o.data ≠ doc := by
  have hne : doc.take k ≠ doc := by
    intro e
    have := congrArg List.length e
    rw [List.length_take] at this
    omega
  have hd : Delivers doc (cutReply type doc k) :=
    ⟨List.take_prefix k doc, fun n hn => by cases hn; rfl, fun hn => by cases hn⟩
  refine ⟨hd, ⟨by simp [cutReply], hne, rfl⟩, fun t => ?_⟩
  have he : readsEnd (cutReply type doc k) := .inr ⟨doc.length, rfl, by simp only [cutReply, List.length_take]; omega, rfl⟩
  have hr : received (cutReply type doc k) = doc.take k := by rw [received_delivers hd]; rfl
  by_cases hg : ToldGzip (cutReply type doc k) (doc.take k)
  · exact ⟨⟨doc.take k, true⟩, (retrieve_ends t he _).mpr ⟨hr.symm, by rw [hr]; simp [hg]⟩, rfl, hne⟩
  · exact ⟨⟨doc.take k, false⟩, (retrieve_ends t he _).mpr ⟨hr.symm, by rw [hr]; simp [hg]⟩, rfl, hne⟩

/-- Compression helps, if the header tells of it and a part of the compressed document is not accepted: what is read without an
    exception is the whole document or nothing at all. -/
theorem retrieve_compressed {doc : Bytes} {r : HttpReply} (h : Delivers doc r)
    (ht : r.contentType = some (ascii "application/x-gzip") ∨ r.contentType = some (ascii "application/gzip"))
    {gunzip : Bytes → Bytes × Bool} (hg : ∀ part, part <+: doc → part ≠ [] → part ≠ doc → (gunzip part).2 = false) (t : Bool) {o : Retrieved}
    (ho : retrieve r t = .ok o) (hi : (readOut gunzip o).2 = true) : readOut gunzip o = gunzip doc ∨ readOut gunzip o = gunzip [] := by
  have hz : o.gzip = true := by
    by_cases he : readsEnd r
    · refine ((retrieve_ends t he o).mp ho).2.mpr ?_
      rcases ht with ht | ht
      · exact .inl ht
      · exact .inr (.inl ht)
    · obtain ⟨x, hx⟩ := retrieve_fails t he
      rw [hx] at ho; cases ho
  have hr : readOut gunzip o = gunzip o.data := by unfold readOut; rw [if_pos hz]
  rw [hr] at hi ⊢
  by_cases h1 : o.data = []
  · exact .inr (by rw [h1])
  · by_cases h2 : o.data = doc
    · exact .inl (by rw [h2])
    · rw [hg _ (retrieve_part h t ho) h1 h2] at hi
      cases hi

/-- If the connection is closed right behind the headers, every document is read as an empty one, compressed or not (Python's
    `gzip` module takes an empty file for an empty document).  For a geofeed: all that was known from it is forgotten, and it is
    noted that the update has succeeded. -/
theorem retrieve_violated_empty (type : Option CStr) {doc : Bytes} (hd : doc ≠ []) {gunzip : Bytes → Bytes × Bool} (hg : gunzip [] = ([], true)) :
    asFetched gunzip (cutReply type doc 0) = .file [] true ∧
    ∀ (e : GeoEnv) (url : CStr), e.retrieve url = asFetched gunzip (cutReply type doc 0) → ∀ id (t : GeoTables),
      ∃ t', fetchGeofeed e id url t = some t' ∧ (∀ x ∈ t'.rows, x.1 ≠ id) ∧
        ∀ x ∈ t'.feeds, x.1 = id → x.2.updated = some e.now ∧ x.2.error = none := by
  have h1 : asFetched gunzip (cutReply type doc 0) = .file [] true := by
    have hk : 0 < doc.length := List.length_pos_iff.mpr hd
    obtain ⟨o, ho, hdata, -⟩ := (retrieve_violated_cut type doc hk).2.2 true
    unfold asFetched
    rw [ho]
    simp only
    have : readOut gunzip o = ([], true) := by
      unfold readOut
      rw [hdata, List.take_zero, hg]
      split <;> rfl
    rw [this]
  refine ⟨h1, fun e url he id t => ?_⟩
  unfold fetchGeofeed
  rw [he, h1]
  simp only
  have hl : geoLines e (fileLines []) = some [] := rfl
  rw [hl]
  simp only [if_true]
  refine ⟨_, rfl, ?_, ?_⟩
  · intro x hx
    simp only [List.map_nil, List.append_nil, dropRows, List.mem_filter, decide_eq_true_eq] at hx
    exact hx.2
  · intro x hx hid
    simp only [setFeed, List.mem_map] at hx
    obtain ⟨y, hy, rfl⟩ := hx
    split at hid
    · rename_i hyd
      rw [if_pos hyd]
      exact ⟨rfl, rfl⟩
    · rename_i hyd
      exact absurd hid hyd

/-- Without a timeout (imports of whois data and of feeds) a server that falls silent is waited for without end. -/
theorem retrieve_violated_silent (type : Option CStr) (doc : Bytes) {k : Nat} (hk : k < doc.length) (hs : doc.length ≤ 65536) :
    Delivers doc { cutReply type doc k with ending := .silent } ∧
    retrieve { cutReply type doc k with ending := .silent } false = .error .diverge ∧
    retrieve { cutReply type doc k with ending := .silent } true = .error (.err ETIMEDOUT) := by
  have hr : ∀ t, httpRead { cutReply type doc k with ending := .silent } t 0 65536 = if t then .error (.err ETIMEDOUT) else .error .diverge := by
    intro t
    unfold httpRead asked cutReply
    simp only [List.drop_zero, Nat.sub_zero]
    rw [if_neg (by rw [List.length_take]; omega), if_neg (by simp)]
  refine ⟨⟨List.take_prefix k doc, fun n hn => by cases hn; rfl, fun hn => by cases hn⟩, ?_, ?_⟩
  · unfold retrieve
    rw [readLoop, hr]
    rfl
  · unfold retrieve
    rw [readLoop, hr]
    rfl

/-- What the update of geofeeds reads: exactly the document, if its end arrives; the exception is a document that is
    cut short. -/
theorem retrieve_geofeed_partial {doc : Bytes} {r : HttpReply} (h : Delivers doc r) (hc : ¬ CutShort doc r) (gunzip : Bytes → Bytes × Bool)
    (b : Bytes) (ok : Bool) :
    asFetched gunzip r = .file b ok ↔ SeesEnd r ∧ (ToldGzip r doc → gunzip doc = (b, ok)) ∧ (¬ ToldGzip r doc → b = doc ∧ ok = true) := by
  have hx := retrieve_exact_partial h hc true
  unfold asFetched
  cases hr : retrieve r true with
  | error x =>
    rw [hr] at hx
    constructor
    · intro g
      simp only at g
      split at g <;> cases g
    · rintro ⟨hs, -⟩
      by_cases hz : ToldGzip r doc
      · cases (hx ⟨doc, true⟩).mpr ⟨hs, rfl, fun _ => hz, fun _ => rfl⟩
      · cases (hx ⟨doc, false⟩).mpr ⟨hs, rfl, (fun g => by cases g), fun g => absurd g hz⟩
  | ok o =>
    rw [hr] at hx
    obtain ⟨hs, hd, hz⟩ := (hx o).mp rfl
    simp only
    unfold readOut
    rw [hd]
    by_cases ht : ToldGzip r doc
    · rw [if_pos (hz.mpr ht)]
      constructor
      · intro g
        cases g
        exact ⟨hs, fun _ => rfl, fun g => absurd ht g⟩
      · rintro ⟨-, g, -⟩
        rw [g ht]
    · rw [if_neg (fun g => ht (hz.mp g))]
      constructor
      · intro g
        cases g
        exact ⟨hs, fun g => absurd g ht, fun _ => ⟨rfl, rfl⟩⟩
      · rintro ⟨-, -, g⟩
        obtain ⟨rfl, rfl⟩ := g ht
        rfl

/-- A server that falls silent within a geofeed of at most 65536 bytes: the geofeed counts as failed, with the text
    "timed out". -/
theorem retrieve_geofeed_silent (type : Option CStr) (doc : Bytes) {k : Nat} (hk : k < doc.length) (hs : doc.length ≤ 65536)
    (gunzip : Bytes → Bytes × Bool) :
    asFetched gunzip { cutReply type doc k with ending := .silent } = .failed (ascii "timed out") := by
  unfold asFetched
  rw [(retrieve_violated_silent type doc hk hs).2.2]
  rfl

/-- A document that arrives whole. -/
example : let r : HttpReply := ⟨some (ascii "text/csv"), .sized 6, ascii "a,b\nc\n", false, .closed⟩
    Delivers (ascii "a,b\nc\n") r ∧ ¬ CutShort (ascii "a,b\nc\n") r ∧ retrieve r true = .ok ⟨ascii "a,b\nc\n", false⟩ := by
  have h1 : Delivers (ascii "a,b\nc\n") ⟨some (ascii "text/csv"), .sized 6, ascii "a,b\nc\n", false, .closed⟩ :=
    ⟨List.prefix_refl _, fun n hn => by cases hn; decide, fun hn => by cases hn⟩
  have h2 : ¬ CutShort (ascii "a,b\nc\n") ⟨some (ascii "text/csv"), .sized 6, ascii "a,b\nc\n", false, .closed⟩ := fun h => h.2.1 rfl
  refine ⟨h1, h2, (retrieve_exact_partial h1 h2 true _).mpr ⟨?_, rfl, ?_⟩⟩
  · unfold SeesEnd
    decide
  · unfold ToldGzip
    decide

/-- A compressed document whose header says so, cut in the middle: the hypotheses of `retrieve_compressed` are met with a decoder
    that only accepts this document. -/
example : let doc : Bytes := [0x1f, 0x8b, 1, 2]
    let gunzip : Bytes → Bytes × Bool := fun x => if x = doc then ([65], true) else ([], x.isEmpty)
    Delivers doc (cutReply (some (ascii "application/gzip")) doc 3) ∧
    (∀ part, part <+: doc → part ≠ [] → part ≠ doc → (gunzip part).2 = false) ∧
    ∃ o, retrieve (cutReply (some (ascii "application/gzip")) doc 3) true = .ok o ∧ (readOut gunzip o).2 = false := by
  refine ⟨(retrieve_violated_cut _ _ (by decide)).1, ?_, ⟨[0x1f, 0x8b, 1], true⟩, rfl, by decide⟩
  intro part _ h1 h2
  simp only
  rw [if_neg h2]
  cases part with
  | nil => exact absurd rfl h1
  | cons b l => rfl

/-! ## C87 -/

/-- Requests for https URLs go out as the URL and the proxies say, if there is no proxy for http.  Partial: with one they never
    do, see `https_plain_violated` and `https_detour_violated`. -/
theorem https_request_partial {e : ProxyEnv} (hu : UsualProxies e) (h : e.http = none) (host : CStr) :
    ∃ o, sendRequest e .https host = .ok o ∧ AsUrlSays e .https host o := by
  unfold sendRequest makeRequest
  rw [h]
  cases hs : e.https with
  | none =>
    refine ⟨⟨true, host, none, false⟩, by simp [ownProxy, openRequest, openHttps, hs], rfl, fun _ => ⟨rfl, rfl⟩, ?_⟩
    intro p hp
    rw [hs] at hp; cases hp
  | some p =>
    obtain ⟨s, hp, h1, -⟩ := hu p (.inl hs)
    refine ⟨⟨true, hp, some host, true⟩, by simp [ownProxy, openRequest, openHttps, setProxy, hs, h1], rfl, ?_, ?_⟩
    · intro hn
      rw [hs] at hn; cases hn
    · intro p' hp'
      rw [hs] at hp'
      cases hp'
      exact ⟨(s, hp), h1, rfl, rfl⟩

/-- If both proxies are set, requests for https URLs are not encrypted: they go through a tunnel to the host as plain http. -/
theorem https_plain_violated {e : ProxyEnv} (hu : UsualProxies e) {p q : CStr} (hp : e.https = some p) (hq : e.http = some q) (host : CStr) :
    ∃ o, sendRequest e .https host = .ok o ∧ o.tls = false ∧ o.tunnel = some host ∧ ¬ AsUrlSays e .https host o := by
  obtain ⟨s, hpq, h1, h2⟩ := hu q (.inr hq)
  have hs : s.getD .http = .http := by rcases h2 with rfl | rfl <;> rfl
  refine ⟨⟨false, hpq, some host, true⟩, ?_, rfl, rfl, fun h => by cases h.1⟩
  unfold sendRequest makeRequest
  rw [hp, hq]
  simp [ownProxy, openRequest, setProxy, hq, h1, hs]

/-- If only a proxy for http is set, requests for https URLs go there as well, to a host named as the variable says: with
    `http://` in front of it, if the variable has that. -/
theorem https_detour_violated {e : ProxyEnv} {q : CStr} (hp : e.https = none) (hq : e.http = some q) (host : CStr) :
    sendRequest e .https host = .ok ⟨true, q, some host, false⟩ ∧ ¬ AsUrlSays e .https host ⟨true, q, some host, false⟩ := by
  constructor
  · unfold sendRequest makeRequest
    rw [hp, hq]
    simp [ownProxy, openRequest, openHttps, setProxy, hp]
  · intro h
    cases (h.2.1 hp).2

/-- Requests for http URLs go out as the URL and the proxies say, exactly if there is no proxy for https. -/
theorem http_request_iff {e : ProxyEnv} (hu : UsualProxies e) (host : CStr) :
    (∃ o, sendRequest e .http host = .ok o ∧ AsUrlSays e .http host o) ↔ e.https = none := by
  unfold sendRequest makeRequest
  cases hs : e.https with
  | some p =>
    obtain ⟨s, hp, h1, -⟩ := hu p (.inl hs)
    simp only [reduceCtorEq, iff_false]
    rintro ⟨o, ho, h⟩
    have : o.tls = true := by
      cases hq : e.http with
      | none =>
        simp [hq, hs, ownProxy, openRequest, openHttps, setProxy, h1] at ho
        rw [← ho]
      | some q =>
        simp [hq, hs, ownProxy, openRequest, openHttps, setProxy, h1] at ho
        rw [← ho]
    rw [h.1] at this
    cases this
  | none =>
    simp only [iff_true]
    cases hq : e.http with
    | none =>
      refine ⟨⟨false, host, none, false⟩, by simp [ownProxy, openRequest, hq], rfl, rfl, fun _ => ⟨rfl, rfl⟩, ?_⟩
      intro p hp
      rw [hq] at hp; cases hp
    | some q =>
      obtain ⟨s, hp, h1, h2⟩ := hu q (.inr hq)
      have hsd : s.getD .http = .http := by rcases h2 with rfl | rfl <;> rfl
      refine ⟨⟨false, hp, none, true⟩, by simp [ownProxy, openRequest, setProxy, hq, h1, hsd], rfl, rfl, ?_, ?_⟩
      · intro hn
        rw [hq] at hn; cases hn
      · intro p' hp'
        rw [hq] at hp'
        cases hp'
        exact ⟨(s, hp), h1, rfl, rfl⟩

/-- A request for an http URL with a proxy for https: the proxy is asked, encrypted, for a tunnel to itself. -/
theorem http_request_violated {e : ProxyEnv} (hu : UsualProxies e) {p : CStr} (hp : e.https = some p) (host : CStr) :
    ∃ o, sendRequest e .http host = .ok o ∧ o.tls = true ∧ o.tunnel = some p := by
  obtain ⟨s, hpp, h1, -⟩ := hu p (.inl hp)
  unfold sendRequest makeRequest
  cases hq : e.http with
  | none => exact ⟨⟨true, hpp, some p, true⟩, by simp [hp, hq, ownProxy, openRequest, openHttps, setProxy, h1], rfl, rfl⟩
  | some q => exact ⟨⟨true, hpp, some p, true⟩, by simp [hp, hq, ownProxy, openRequest, openHttps, setProxy, h1], rfl, rfl⟩

/-- The usual settings: the same proxy for both. -/
def demoProxies : ProxyEnv :=
  ⟨some (ascii "http://proxy:3128"), some (ascii "http://proxy:3128"), fun p => if p = ascii "http://proxy:3128" then some (some .http, ascii "proxy:3128") else none⟩

theorem demo_proxies : UsualProxies demoProxies := by
  intro p hp
  have : p = ascii "http://proxy:3128" := by rcases hp with h | h <;> (cases h; rfl)
  subst this
  exact ⟨some .http, ascii "proxy:3128", rfl, .inr rfl⟩

example : sendRequest demoProxies .https (ascii "location.ipfire.org") =
    .ok ⟨false, ascii "proxy:3128", some (ascii "location.ipfire.org"), true⟩ := rfl

/-- A proxy for https alone meets the hypotheses of `https_request_partial`. -/
example : UsualProxies { demoProxies with http := none } ∧
    sendRequest { demoProxies with http := none } .https (ascii "location.ipfire.org") =
      .ok ⟨true, ascii "proxy:3128", some (ascii "location.ipfire.org"), true⟩ := by
  refine ⟨?_, rfl⟩
  intro p hp
  rcases hp with h | h
  · exact demo_proxies p (.inl h)
  · cases h

/-- A proxy for http alone meets the condition of `http_request_iff`. -/
example : UsualProxies { demoProxies with https := none } ∧
    sendRequest { demoProxies with https := none } .http (ascii "location.ipfire.org") = .ok ⟨false, ascii "proxy:3128", none, true⟩ := by
  refine ⟨?_, rfl⟩
  intro p hp
  rcases hp with h | h
  · cases h
  · exact demo_proxies p (.inr h)

end Loc.Props
