import Verif.Store.HttpMeta

/-!
# Where the frontends listen (C132)

Modelled: the address that the HTTP frontend (/repo/src/frontend/http.rs 656-669), the Arrow Flight frontend
(/repo/src/frontend/flight/mod.rs 22-49) and the metrics endpoint (/repo/src/config/context.rs 121-128) listen at, from the
host and the port of the configuration (/repo/src/config/schema.rs 171-202, 244-262, 293-298).  Texts are lists of bytes.

The library: `SocketAddr::from_str` of the Rust standard library, with the text of an IPv6 address, between its brackets, as a
parameter.  The PostgreSQL frontend hands host and port to its library and is not modelled.
-/

namespace Seafowl.Listen

open Seafowl.Store.Http (decimal isDigit digitsValue)

variable {α : Type}

/-- An address: of version 4, or of version 6 (`α`). -/
inductive Ip (α : Type) where
  | v4 (a b c d : Nat)
  | v6 (x : α)
deriving DecidableEq, Repr

/-- `Parser::read_number` with radix 10: the longest run of digits, unless it is empty, too long, too big, or has a leading zero. -/
def number (max : Option Nat) (zeros : Bool) (bound : Nat) (s : List Nat) : Option (Nat × List Nat) :=
  let ds := s.takeWhile isDigit
  if ds.isEmpty then none
  else if max.any (· < ds.length) then none
  else if !zeros && ds.head? == some 48 && 1 < ds.length then none
  else if bound ≤ digitsValue ds then none
  else some (digitsValue ds, s.dropWhile isDigit)

/-- `read_given_char` -/
def given (c : Nat) : List Nat → Option (List Nat)
  | x :: s => if x = c then some s else none
  | [] => none

/-- A number of an IPv4 address. -/
def octet (s : List Nat) : Option (Nat × List Nat) := number (some 3) false 256 s

/-- A dot and a number. -/
def dotOctet (s : List Nat) : Option (Nat × List Nat) := (given 46 s).bind octet

/-- `read_ipv4_addr` -/
def readV4 (s : List Nat) : Option (Ip α × List Nat) :=
  (octet s).bind fun a => (dotOctet a.2).bind fun b => (dotOctet b.2).bind fun c => (dotOctet c.2).map fun d =>
    (.v4 a.1 b.1 c.1 d.1, d.2)

/-- `read_port`: a colon and a number of 16 bits. -/
def readPort (s : List Nat) : Option (Nat × List Nat) := (given 58 s).bind (number none true 65536)

/-- The address in brackets of `read_socket_addr_v6`. -/
def readV6 (v6 : List Nat → Option α) (s : List Nat) : Option (Ip α × List Nat) :=
  (given 91 s).bind fun t =>
    (v6 (t.takeWhile (· != 93))).bind fun x => (given 93 (t.dropWhile (· != 93))).map fun r => (.v6 x, r)

/-- `read_socket_addr` up to the end of the text. -/
def parseAddr (v6 : List Nat → Option α) (s : List Nat) : Option (Ip α × Nat) :=
  ((readV4 s).orElse fun _ => readV6 v6 s).bind fun a => (readPort a.2).bind fun p => if p.2 = [] then some (a.1, p.1) else none

/-- What a frontend does at its start: it listens, or it panics. -/
inductive Start (α : Type) where
  | listens (ip : Ip α) (port : Nat)
  | panics
deriving DecidableEq, Repr

/-- `format!("{}:{}", config.bind_host, config.bind_port).parse().expect(…)` -/
def start (v6 : List Nat → Option α) (host : List Nat) (port : Nat) : Start α :=
  match parseAddr v6 (host ++ 58 :: decimal port) with
  | some (ip, p) => .listens ip p
  | none => .panics

end Seafowl.Listen
