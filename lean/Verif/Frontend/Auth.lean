/-
Access control of the HTTP frontend.

Modelled: /repo/src/auth.rs 16-74 (policy, principal, action), 76-109 (`token_to_principal`),
111-129 (`can_perform_action`), /repo/src/frontend/http.rs 235-253 (`header_to_user_context`),
/repo/src/frontend/http_utils.rs 51-76 (`ApiError`), 99-130 (`status_code_body`, the status only).
The SHA-256 hex digest (`str_to_hex_hash`) is a parameter.
-/
namespace Seafowl.Front

/-- Text: header values, tokens, queries. -/
abbrev Str := List Char

/-- `AccessSettings` (config/schema.rs): open to anyone, switched off, or guarded by the SHA-256
of a password. -/
inductive Access
  | any
  | off
  | password (sha : Str)
  deriving DecidableEq, Repr

/-- `AccessPolicy` (auth.rs 24-28). -/
structure Policy where
  read : Access
  write : Access
  deriving DecidableEq, Repr

/-- `Principal` (auth.rs 6-11). -/
inductive Principal
  | anonymous
  | writer
  | reader
  deriving DecidableEq, Repr

/-- `Action` (auth.rs 18-22). -/
inductive Action
  | read
  | write
  deriving DecidableEq, Repr

/-- `ApiError` (http_utils.rs 51-76); the payloads of the Rust variants that carry library error
values are rendered as text. -/
inductive ApiError
  | dataFusion (e : Str)
  | io (e : Str)
  | hashMismatch (expected got : Str)
  | notReadOnlyQuery
  | readOnlyEndpointDisabled
  | readForbidden
  | writeForbidden
  | needAccessToken
  | uselessAccessToken
  | wrongAccessToken
  | invalidAuthorizationHeader
  | invalidMultiStatement
  | emptyMultiStatement
  | uploadMissingFile
  | uploadMissingFilename
  | uploadMissingFilenameExtension (f : Str)
  | uploadSchemaDeserialization (e : Str)
  | uploadSchemaParse (e : Str)
  | uploadFileLoad (e : Str)
  | uploadBodyLoad (e : Str)
  | uploadHasHeaderParse
  | uploadUnsupportedFileFormat (f : Str)
  | queryDecode
  | queryParsing (e : Str)
  deriving DecidableEq, Repr

/-- The status half of `ApiError::status_code_body` (http_utils.rs 99-130). -/
def ApiError.status : ApiError → Nat
  | .dataFusion _ => 400
  | .io _ => 500
  | .hashMismatch _ _ => 400
  | .notReadOnlyQuery => 405
  | .readOnlyEndpointDisabled => 405
  | .readForbidden => 403
  | .writeForbidden => 403
  | .needAccessToken => 401
  | .uselessAccessToken => 400
  | .wrongAccessToken => 401
  | .invalidAuthorizationHeader => 401
  | .invalidMultiStatement => 400
  | .emptyMultiStatement => 400
  | .uploadMissingFile => 400
  | .uploadMissingFilename => 400
  | .uploadMissingFilenameExtension _ => 400
  | .uploadSchemaDeserialization _ => 400
  | .uploadSchemaParse _ => 400
  | .uploadFileLoad _ => 400
  | .uploadBodyLoad _ => 400
  | .uploadHasHeaderParse => 400
  | .uploadUnsupportedFileFormat _ => 400
  | .queryDecode => 400
  | .queryParsing _ => 400

/-- `token_to_principal` (auth.rs 76-109), arm by arm. -/
def tokenToPrincipal (hash : Str → Str) (token : Option Str) (p : Policy) :
    Except ApiError Principal :=
  match token, p.write, p.read with
  | none, .off, .off => .error .needAccessToken
  | none, .off, .password _ => .error .needAccessToken
  | none, .password _, .off => .error .needAccessToken
  | none, .password _, .password _ => .error .needAccessToken
  | none, _, _ => .ok .anonymous
  | some _, .any, .any => .error .uselessAccessToken
  | some _, .any, .off => .error .uselessAccessToken
  | some _, .off, .any => .error .uselessAccessToken
  | some _, .off, .off => .error .uselessAccessToken
  | some t, .password w, .password r =>
    if hash t = w then .ok .writer
    else if hash t = r then .ok .reader
    else .error .wrongAccessToken
  | some t, .password w, _ => if hash t = w then .ok .writer else .error .wrongAccessToken
  | some t, _, .password r => if hash t = r then .ok .reader else .error .wrongAccessToken

/-- `can_perform_action` (auth.rs 111-129). -/
def canPerform (pr : Principal) (a : Action) (p : Policy) : Bool :=
  match pr, a, p.read, p.write with
  | .writer, _, _, _ => true
  | .reader, .read, _, _ => true
  | _, .read, .any, _ => true
  | _, .write, _, .any => true
  | _, _, _, _ => false

/-- `BEARER_PREFIX` (http.rs). -/
def bearer : Str := ['B', 'e', 'a', 'r', 'e', 'r', ' ']

/-- `trim_start_matches(BEARER_PREFIX)`: strips the prefix as often as it occurs. -/
def trimBearer (s : Str) : Str :=
  if bearer.isPrefixOf s then trimBearer (s.drop 7) else s
termination_by s.length
decreasing_by
  rename_i h
  have h' : bearer <+: s := List.isPrefixOf_iff_prefix.1 h
  have := h'.length_le
  simp [bearer] at this
  simp only [List.length_drop]
  omega

/-- `header_to_user_context` (http.rs 235-253): the principal of the user context. -/
def headerToPrincipal (hash : Str → Str) (header : Option Str) (p : Policy) :
    Except ApiError Principal :=
  match header with
  | none => tokenToPrincipal hash none p
  | some h =>
    if bearer.isPrefixOf h then tokenToPrincipal hash (some (trimBearer h)) p
    else .error .invalidAuthorizationHeader

end Seafowl.Front
