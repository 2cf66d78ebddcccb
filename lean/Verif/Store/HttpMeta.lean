import Verif.Store.Http

/-!
# Model of the HTTP object store: sizes and ranges that servers report

`head`, `head_via_get`, `get_opts` and `header_meta` of /repo/src/object_store/http.rs.  Texts are lists
of bytes (`Nat`).
-/

namespace Seafowl.Store.Http

/-- The headers of an answer that the code looks at.  `lastModifiedOk` and `etagOk` say whether the
`Last-Modified` and `ETag` headers, if any, can be parsed; their values do not matter here. -/
structure Headers where
  contentLength : Option (List Nat) := none
  contentRange : Option (List Nat) := none
  acceptRanges : Option (List Nat) := none
  lastModifiedOk : Bool := true
  etagOk : Bool := true
deriving DecidableEq, Repr

/-- An answer of a server with its headers. -/
structure Full where
  status : Nat
  headers : Headers
  body : List Nat
deriving DecidableEq, Repr

/-- A server, for one URL: the answer to `HEAD` and to `GET` with an optional `Range` header (`none`: no
answer). -/
structure Server where
  head : Option Full
  get : Option (List Nat) → Option Full

/-- Result of an operation of the store. -/
inductive Out (α : Type) where
  | ok (a : α)
  | err
  | panic
deriving DecidableEq, Repr

/-- `HeaderValue::to_str` (library): visible ASCII characters and tabs only. -/
def toStr (v : List Nat) : Option (List Nat) :=
  if v.all (fun b => (32 ≤ b && b < 127) || b == 9) then some v else none

/-- An ASCII digit. -/
def isDigit (b : Nat) : Bool := 48 ≤ b && b ≤ 57

/-- Value of a list of digits. -/
def digitsValue (l : List Nat) : Nat := l.foldl (fun a c => 10 * a + (c - 48)) 0

/-- An optional plus sign. -/
def dropPlus : List Nat → List Nat
  | 43 :: r => r
  | l => l

/-- `str::parse::<u64>` and `parse::<usize>` (library): an optional plus sign and at least one digit, no
overflow. -/
def parseU64 (l : List Nat) : Option Nat :=
  let d := dropPlus l
  if !d.isEmpty && d.all isDigit && digitsValue d < 2 ^ 64 then some (digitsValue d) else none

/-- `\s` of the regular expression on the characters that `to_str` lets through. -/
def isSpace (b : Nat) : Bool := b == 32 || b == 9

/-- `\s?`, greedy. -/
def optSpace : List Nat → List Nat
  | c :: cs => if isSpace c then cs else c :: cs
  | [] => []

/-- `/?`, greedy. -/
def optSlash : List Nat → List Nat
  | 47 :: r => r
  | l => l

/-- `CONTENT_RANGE_RE` (http.rs 42-45), `(^bytes)\s+(\d+)\s?-\s?(\d+)?\s?/?\s?(\d+|\*)?`: `none` if it
does not match, otherwise capture group 4.  Everything after the hyphen is optional, so that no
backtracking happens. -/
def contentRangeRe (s : List Nat) : Option (Option (List Nat)) :=
  match stripPrefix (ascii "bytes") s with
  | none => none
  | some r =>
    let r1 := r.dropWhile isSpace
    if r1.length = r.length then none
    else
      let d := r1.takeWhile isDigit
      if d.isEmpty then none
      else
        match optSpace (r1.dropWhile isDigit) with
        | 45 :: r2 =>
          let r3 := optSpace ((optSpace r2).dropWhile isDigit)
          let r4 := optSpace (optSlash r3)
          if !(r4.takeWhile isDigit).isEmpty then some (some (r4.takeWhile isDigit))
          else match r4 with
            | 42 :: _ => some (some [42])
            | _ => some none
        | _ => none

/-- `send` (http.rs 193-203): the status of an error answer is kept for `head`. -/
def sendFull (r : Option Full) : Except (Option Nat) Full :=
  match r with
  | none => .error none
  | some r => if 400 ≤ r.status ∧ r.status < 600 then .error (some r.status) else .ok r

/-- `head_via_get` (http.rs 211-240): the size.  `.get(4).unwrap()` panics if group 4 did not take part in
the match. -/
def headViaGet (s : Server) : Out Nat :=
  match sendFull (s.get (some (ascii "bytes=0-0"))) with
  | .error _ => .err
  | .ok r =>
    match r.headers.contentRange with
    | none => .err
    | some v =>
      match toStr v with
      | none => .err
      | some t =>
        match contentRangeRe t with
        | none => .err
        | some none => .panic
        | some (some g) =>
          match parseU64 g with
          | none => .err
          | some n => .ok n

/-- `str::to_lowercase` on ASCII. -/
def lower (l : List Nat) : List Nat := l.map (fun b => if 65 ≤ b ∧ b ≤ 90 then b + 32 else b)

/-- `head` (http.rs 391-441): the size. -/
def head (s : Server) : Out Nat :=
  match sendFull s.head with
  | .error (some st) => if st = 403 then headViaGet s else .err
  | .error none => .err
  | .ok r =>
    match r.headers.contentLength with
    | none => .err
    | some v =>
      match toStr v with
      | none => .err
      | some t =>
        match parseU64 t with
        | none => .err
        | some n =>
          match r.headers.acceptRanges with
          | none => .err
          | some a =>
            match toStr a with
            | none => .err
            | some a => if lower a = ascii "bytes" then .ok n else .err

/-- `split_once`. -/
def splitOnce (c : Nat) : List Nat → Option (List Nat × List Nat)
  | [] => none
  | x :: xs => if x = c then some ([], xs) else (splitOnce c xs).map (fun p => (x :: p.1, p.2))

/-- `trim` on the characters that `to_str` lets through. -/
def trim (l : List Nat) : List Nat := ((l.dropWhile isSpace).reverse.dropWhile isSpace).reverse

/-- `ContentRange::from_str` (http.rs 320-338): start, end (exclusive) and complete size.  `end + 1` is
not bounded here. -/
def contentRange (s : List Nat) : Option (Nat × Nat × Nat) :=
  match stripPrefix (ascii "bytes ") (trim s) with
  | none => none
  | some rem =>
    match splitOnce 47 rem with
    | none => none
    | some (range, size) =>
      match parseU64 size with
      | none => none
      | some size =>
        match splitOnce 45 range with
        | none => none
        | some (a, b) =>
          match parseU64 a, parseU64 b with
          | some a, some b => some (a, b + 1, size)
          | _, _ => none

/-- The part of `GetResult` that matters. -/
structure GetResult where
  start : Nat
  stop : Nat
  size : Nat
  body : List Nat
deriving DecidableEq, Repr

/-- `header_meta` (http.rs 569-625): the size. -/
def headerMeta (h : Headers) : Option Nat :=
  if !h.lastModifiedOk || !h.etagOk then none
  else
    match h.contentLength with
    | none => none
    | some v =>
      match toStr v with
      | none => none
      | some t => parseU64 t

/-- `get_opts` (http.rs 291-362) with only the range option.  The header is what `GetRange::to_string`
gives for a bounded range; its `end - 1` underflows for `end = 0`. -/
def getOpts (s : Server) (range : Option (Nat × Nat)) : Out GetResult :=
  match (match range with
    | none => some none
    | some (a, b) => (rangeHeader a b).map some) with
  | none => .panic
  | some h =>
    match sendFull (s.get h) with
    | .error _ => .err
    | .ok r =>
      match headerMeta r.headers with
      | none => .err
      | some size =>
        match range with
        | none => .ok ⟨0, size, size, r.body⟩
        | some _ =>
          match r.headers.contentRange with
          | none => .err
          | some v =>
            match toStr v with
            | none => .err
            | some t =>
              match contentRange t with
              | none => .err
              | some (a, b, n) => .ok ⟨a, b, n, r.body⟩

/-- `list` (http.rs 449-474): a prefix that does not end with a slash is a single object. -/
def list (s : Server) : Option (List Nat) → Out (List Nat)
  | none => .err
  | some p =>
    if p.getLast? = some 47 then .err
    else match head s with
      | .ok n => .ok [n]
      | .err => .err
      | .panic => .panic

end Seafowl.Store.Http
