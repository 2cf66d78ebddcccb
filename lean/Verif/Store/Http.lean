/-!
# Model of the HTTP object store: ranges and URLs

/repo/src/object_store/http.rs.  Texts are lists of bytes (`Nat`).
-/

namespace Seafowl.Store.Http

/-- A text as bytes; only used for ASCII constants. -/
def ascii (s : String) : List Nat := s.toList.map Char.toNat

/-- Decimal digits of a number, as `format!("{}", n)` writes them. -/
def decimal (n : Nat) : List Nat :=
  if n < 10 then [48 + n] else decimal (n / 10) ++ [48 + n % 10]
termination_by n

/-- The value of the `Range` header sent by `get_range` (http.rs 372-378); `range.end - 1` underflows for
`end = 0` (`none`: panic). -/
def rangeHeader (start stop : Nat) : Option (List Nat) :=
  if stop = 0 then none
  else some (ascii "bytes=" ++ decimal start ++ ascii "-" ++ decimal (stop - 1))

/-- An answer of a server. -/
structure Response where
  status : Nat
  body : List Nat
deriving DecidableEq, Repr

/-- Result of `get_range`. -/
inductive GetRes where
  | ok (data : List Nat)
  | err
  | panic
deriving DecidableEq, Repr

/-- `send` (http.rs 193-203): answers with a 4xx or 5xx status become errors (`error_for_status`).
Redirects are followed by the client library; network failures are `none` from the server. -/
def send (server : List Nat → Option Response) (header : List Nat) : Option Response :=
  match server header with
  | none => none
  | some r => if 400 ≤ r.status ∧ r.status < 600 then none else some r

/-- `get_range` (http.rs 364-389). -/
def getRange (server : List Nat → Option Response) (start stop : Nat) : GetRes :=
  match rangeHeader start stop with
  | none => .panic
  | some h =>
    match send server h with
    | none => .err
    | some r => if r.status = 206 then .ok r.body else .err

/-! ### URLs -/

/-- ASCII letters and digits. -/
def isAlnum (b : Nat) : Bool := (48 ≤ b && b ≤ 57) || (65 ≤ b && b ≤ 90) || (97 ≤ b && b ≤ 122)

/-- Upper case hexadecimal digit. -/
def hexDigit (n : Nat) : Nat := if n < 10 then 48 + n else 55 + n

/-- `utf8_percent_encode(_, NON_ALPHANUMERIC)`: every byte that is not an ASCII letter or digit. -/
def percentEncode : List Nat → List Nat
  | [] => []
  | b :: bs => (if isAlnum b then [b] else [37, hexDigit (b / 16), hexDigit (b % 16)]) ++ percentEncode bs

/-- Value of a hexadecimal digit. -/
def hexValue (b : Nat) : Option Nat :=
  if 48 ≤ b ∧ b ≤ 57 then some (b - 48)
  else if 65 ≤ b ∧ b ≤ 70 then some (b - 55)
  else if 97 ≤ b ∧ b ≤ 102 then some (b - 87)
  else none

/-- `percent_decode_str`: `%` followed by two hexadecimal digits is a byte, everything else stands for
itself. -/
def percentDecode : List Nat → List Nat
  | [] => []
  | 37 :: a :: b :: rest =>
    match hexValue a, hexValue b with
    | some x, some y => (16 * x + y) :: percentDecode rest
    | _, _ => 37 :: percentDecode (a :: b :: rest)
  | c :: rest => c :: percentDecode rest
termination_by l => l.length

/-- `strip_prefix`. -/
def stripPrefix : List Nat → List Nat → Option (List Nat)
  | [], s => some s
  | p :: ps, c :: cs => if p = c then stripPrefix ps cs else none
  | _ :: _, [] => none

/-- `try_prepare_http_url` (http.rs 548-567). -/
def prepareUrl (location : List Nat) : Option (List Nat) :=
  match stripPrefix (ascii "http://") location with
  | some l => some (ascii "http://anyhost/" ++ percentEncode l)
  | none =>
    match stripPrefix (ascii "https://") location with
    | some l => some (ascii "https://anyhost/" ++ percentEncode l)
    | none => none

/-- `get_uri` (http.rs 146-150) of the store with the given scheme. -/
def getUri (scheme : List Nat) (path : List Nat) : List Nat :=
  scheme ++ ascii "://" ++ percentDecode path

/-- Which of the two registered stores gets a prepared URL, and the path it gets (library behaviour,
http.rs 520-546: routing by scheme and host `anyhost`; `decode` is what the library does to the URL path,
the identity if the path is handed over verbatim). -/
def route (decode : List Nat → List Nat) (prepared : List Nat) : Option (List Nat × List Nat) :=
  match stripPrefix (ascii "http://anyhost/") prepared with
  | some p => some (ascii "http", decode p)
  | none =>
    match stripPrefix (ascii "https://anyhost/") prepared with
    | some p => some (ascii "https", decode p)
    | none => none

/-- The URL requested for a table location. -/
def requested (decode : List Nat → List Nat) (location : List Nat) : Option (List Nat) :=
  match prepareUrl location with
  | none => none
  | some u =>
    match route decode u with
    | none => none
    | some (scheme, path) => some (getUri scheme path)

end Seafowl.Store.Http
