import Verif.Model.Geofeeds
/-
Model of fetching documents: `src/python/location/downloader.py`, `retrieve` (212-267), `_get_proxies` (53-64), `_make_request`
(66-87) and `_send_request` (89-110).

What Python's own modules do is not in the repository.  The parts that matter are modelled after CPython: `HTTPResponse.read`
(`http/client.py`), `Request.set_proxy`, `ProxyHandler` and `AbstractHTTPHandler.do_open` (`urllib/request.py`).
-/
namespace Loc

/-! ## Reading the reply -/

/-- How the end of the document is told: by its length in the header, by chunks, or by closing the connection. -/
inductive Framing
  | sized (n : Nat)
  | chunked
  | untilClose
  deriving DecidableEq, Repr

/-- What happens behind the bytes that have arrived: the connection is closed, it breaks (an exception), or nothing comes
    any more. -/
inductive Ending
  | closed
  | broken
  | silent
  deriving DecidableEq, Repr

/-- A reply with code 200: the header `Content-Type`, how long the document is, the bytes of it that arrive, whether the chunk
    that ends the document arrives (in chunked replies), and what follows. -/
structure HttpReply where
  contentType : Option CStr
  framing : Framing
  arrived : Bytes
  last : Bool
  ending : Ending
  deriving DecidableEq, Repr

def ETIMEDOUT : Nat := 110
def ECONNRESET : Nat := 104
def EPROTO : Nat := 71

/-- How much `HTTPResponse.read(amt)` of CPython asks for behind the first `pos` bytes -/
def asked (r : HttpReply) (pos amt : Nat) : Nat :=
  match r.framing with
  | .sized n => min amt (n - pos)
  | _ => amt

/-- `HTTPResponse.read(amt)` of CPython behind the first `pos` bytes of the document.  If the length is known no more is read;
    if less arrives before the connection is closed, what there is is returned without an error (a comment there says why:
    "Ideally, we would raise IncompleteRead if the content-length wasn't satisfied, but it might break compatibility").
    In chunked replies that raises `IncompleteRead`.  Without a timeout (`t` is false) a silent connection is waited for
    without end. -/
def httpRead (r : HttpReply) (t : Bool) (pos amt : Nat) : Res Bytes :=
  if asked r pos amt ≤ (r.arrived.drop pos).length then .ok ((r.arrived.drop pos).take (asked r pos amt))
  else if r.framing = .chunked ∧ r.last = true then .ok (r.arrived.drop pos)
  else
    match r.ending with
    | .closed => if r.framing = .chunked then .error (.err EPROTO) else .ok (r.arrived.drop pos)
    | .broken => .error (.err ECONNRESET)
    | .silent => if t then .error (.err ETIMEDOUT) else .error .diverge

/-- The loop `while True: buf = f.read(65536) …`, downloader.py:231-237 -/
def readLoop (r : HttpReply) (t : Bool) : Nat → Nat → Res Bytes
  | 0, _ => .error .diverge
  | fuel + 1, pos =>
    match httpRead r t pos 65536 with
    | .error x => .error x
    | .ok buf =>
      if buf.isEmpty then .ok []
      else
        match readLoop r t fuel (pos + buf.length) with
        | .error x => .error x
        | .ok rest => .ok (buf ++ rest)

/-- The file object that is returned: the temporary file, or a `GzipFile` around it. -/
structure Retrieved where
  data : Bytes
  gzip : Bool
  deriving DecidableEq, Repr

/-- "application/x-gzip", downloader.py:246 -/
def strXGzip : CStr := [97, 112, 112, 108, 105, 99, 97, 116, 105, 111, 110, 47, 120, 45, 103, 122, 105, 112]
/-- "application/gzip", downloader.py:246 -/
def strGzip : CStr := [97, 112, 112, 108, 105, 99, 97, 116, 105, 111, 110, 47, 103, 122, 105, 112]
/-- The text of a `TimeoutError` of CPython, "timed out" -/
def strTimedOut : CStr := [116, 105, 109, 101, 100, 32, 111, 117, 116]

/-- `retrieve`, downloader.py:212-267, behind the headers of the reply.  Simplified: writing to the temporary file succeeds. -/
def retrieve (r : HttpReply) (t : Bool) : Res Retrieved :=
  match readLoop r t (r.arrived.length + 1) 0 with
  | .error x => .error x
  | .ok data =>
    if r.contentType = some strXGzip ∨ r.contentType = some strGzip then .ok ⟨data, true⟩
    else if data.take 2 = [0x1f, 0x8b] then .ok ⟨data, true⟩
    else .ok ⟨data, false⟩

/-- What a user reads from the file object, and whether the end is reached without an exception.  `gunzip` stands for Python's
    `gzip` module: what it makes of a file, and whether it accepts the file. -/
def readOut (gunzip : Bytes → Bytes × Bool) (o : Retrieved) : Bytes × Bool := if o.gzip then gunzip o.data else (o.data, true)

/-- What `_fetch_geofeed` makes of it, location-importer.in:1859-1874 and 1975-1994: only the `TimeoutError` is caught. -/
def asFetched (gunzip : Bytes → Bytes × Bool) (r : HttpReply) : Fetched :=
  match retrieve r true with
  | .ok o => .file (readOut gunzip o).1 (readOut gunzip o).2
  | .error x => if x = .err ETIMEDOUT then .failed strTimedOut else .raised

/-! ## Proxies -/

inductive Scheme
  | http
  | https
  | other
  deriving DecidableEq, Repr

/-- A `urllib.request.Request`: the scheme and host to which a connection is made, the host for which a tunnel is asked for, and
    whether the request names the whole URL instead of the path. -/
structure HttpRequest where
  scheme : Scheme
  host : CStr
  tunnel : Option CStr
  absolute : Bool
  deriving DecidableEq, Repr

/-- The environment: `https_proxy` and `http_proxy`; empty ones count as missing (downloader.py:60-62), and so they do in Python.
    `parse` is Python's `_parse_proxy`: the scheme, if there is one, and the host with the port.  Simplified: no other
    variables (`no_proxy`, names in capital letters), and no user names. -/
structure ProxyEnv where
  https : Option CStr
  http : Option CStr
  parse : CStr → Option (Option Scheme × CStr)

/-- `Request.set_proxy(host, type)` of CPython -/
def setProxy (r : HttpRequest) (host : CStr) (s : Scheme) : HttpRequest :=
  if r.scheme = .https ∧ r.tunnel = none then { r with tunnel := some r.host, host := host }
  else { r with scheme := s, absolute := true, host := host }

/-- `if proxy: … set_proxy(self.proxies[protocol], protocol)`, downloader.py:83-85: as the variable says, whole -/
def ownProxy (r : HttpRequest) (p : Option CStr) (s : Scheme) : HttpRequest :=
  match p with
  | none => r
  | some p => setProxy r p s

/-- `_make_request`, downloader.py:66-87, for a URL with this scheme and host; the order of the protocols is the one of
    `_get_proxies`, downloader.py:56. -/
def makeRequest (e : ProxyEnv) (s : Scheme) (host : CStr) : HttpRequest :=
  ownProxy (ownProxy ⟨s, host, none, false⟩ e.https .https) e.http .http

/-- What goes out: whether the connection is encrypted, whom it is made to, for which host a tunnel is asked for, and whether
    the whole URL is named. -/
structure Outgoing where
  tls : Bool
  peer : CStr
  tunnel : Option CStr
  absolute : Bool
  deriving DecidableEq, Repr

/-- `HTTPSHandler.https_open` behind `ProxyHandler.proxy_open` of CPython: the kind of the connection is that of the request
    when it was opened, whatever the proxy is. -/
def openHttps (e : ProxyEnv) (r : HttpRequest) : Res Outgoing :=
  match e.https with
  | none => .ok ⟨true, r.host, r.tunnel, r.absolute⟩
  | some p =>
    match e.parse p with
    | none => .error (.err EINVAL)
    | some (s, hp) =>
      let q := setProxy r hp (s.getD .https)
      .ok ⟨true, q.host, q.tunnel, q.absolute⟩

/-- `urllib.request.urlopen(req)`, downloader.py:98; for a proxy of another scheme than http the request is opened once more. -/
def openRequest (e : ProxyEnv) (r : HttpRequest) : Res Outgoing :=
  match r.scheme with
  | .other => .error (.err EINVAL)
  | .https => openHttps e r
  | .http =>
    match e.http with
    | none => .ok ⟨false, r.host, r.tunnel, r.absolute⟩
    | some p =>
      match e.parse p with
      | none => .error (.err EINVAL)
      | some (s, hp) =>
        let q := setProxy r hp (s.getD .http)
        match s.getD .http with
        | .http => .ok ⟨false, q.host, q.tunnel, q.absolute⟩
        | .https => openHttps e q
        | .other => .error (.err EINVAL)

/-- A request for a URL with this scheme and host, downloader.py:221-224 and 131-134 -/
def sendRequest (e : ProxyEnv) (s : Scheme) (host : CStr) : Res Outgoing := openRequest e (makeRequest e s host)

end Loc
