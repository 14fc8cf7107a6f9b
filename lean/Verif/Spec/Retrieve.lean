import Verif.Model.Retrieve
import Verif.Spec.Dump
/-
Specification vocabulary for fetching documents.
-/
namespace Loc.Spec

/-- The reply delivers this document: its length is announced, some first part of it arrives, and a chunked reply is ended
    behind the whole of it. -/
structure Delivers (doc : Bytes) (r : HttpReply) : Prop where
  part : r.arrived <+: doc
  size : ∀ n, r.framing = .sized n → n = doc.length
  last : r.framing = .chunked → r.last = true → r.arrived = doc

/-- Where the document ends is seen in the reply. -/
def SeesEnd (r : HttpReply) : Prop :=
  match r.framing with
  | .sized n => n ≤ r.arrived.length
  | .chunked => r.last = true
  | .untilClose => r.ending = .closed

/-- The connection is closed before the end of the document, and no chunks are used. -/
def CutShort (doc : Bytes) (r : HttpReply) : Prop := r.framing ≠ .chunked ∧ r.arrived ≠ doc ∧ r.ending = .closed

/-- The header or the first bytes tell that it is compressed. -/
def ToldGzip (r : HttpReply) (data : Bytes) : Prop :=
  r.contentType = some (ascii "application/x-gzip") ∨ r.contentType = some (ascii "application/gzip") ∨ [0x1f, 0x8b] <+: data

/-- A request goes out as its URL and the proxies say: encrypted exactly for https; without a proxy for its scheme directly
    to the host; else to that proxy, which is asked for a tunnel to the host (https) or for the whole URL (http). -/
def AsUrlSays (e : ProxyEnv) (s : Scheme) (host : CStr) (o : Outgoing) : Prop :=
  match s with
  | .https => o.tls = true ∧ (e.https = none → o.peer = host ∧ o.tunnel = none) ∧
      (∀ p, e.https = some p → ∃ q, e.parse p = some q ∧ o.peer = q.2 ∧ o.tunnel = some host)
  | .http => o.tls = false ∧ o.tunnel = none ∧ (e.http = none → o.peer = host ∧ o.absolute = false) ∧
      (∀ p, e.http = some p → ∃ q, e.parse p = some q ∧ o.peer = q.2 ∧ o.absolute = true)
  | .other => False

/-- Proxies as they are usual: host and port, or such behind `http://`. -/
def UsualProxies (e : ProxyEnv) : Prop :=
  ∀ p, e.https = some p ∨ e.http = some p → ∃ s hp, e.parse p = some (s, hp) ∧ (s = none ∨ s = some .http)

end Loc.Spec
