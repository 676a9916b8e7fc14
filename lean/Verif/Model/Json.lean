import Verif.Model.PacketJson

/-
JSON values: encoding/json's scanner and decoder, as far as gogoproto's jsonpb uses them below
`codec.JSONCodec` (module.go:108-119, 142-152).  Strings are those of Model/PacketJson.
-/
namespace Dollar.Json

/-- A JSON value.  A number is its text. -/
inductive J where
  | null
  | bool (b : Bool)
  | num (text : List Char)
  | str (s : List Char)
  | arr (l : List J)
  | obj (l : List (List Char × J))
  deriving Repr

/-- The tokens of a JSON text. -/
inductive Tok where
  | lbrace | rbrace | lbrack | rbrack | colon | comma | null
  | bool (b : Bool)
  | num (text : List Char)
  | str (s : List Char)
  deriving DecidableEq, Repr

/-! ### Writing -/

/-- Tokens separated by commas. -/
def commas : List (List Tok) → List Tok
  | [] => []
  | [t] => t
  | t :: r => t ++ .comma :: commas r

mutual
/-- The tokens of a value. -/
def J.toks : J → List Tok
  | .null => [.null]
  | .bool b => [.bool b]
  | .num t => [.num t]
  | .str s => [.str s]
  | .arr l => .lbrack :: (commas (toksAll l) ++ [.rbrack])
  | .obj l => .lbrace :: (commas (toksMembers l) ++ [.rbrace])

/-- The tokens of the elements of an array. -/
def toksAll : List J → List (List Tok)
  | [] => []
  | j :: t => j.toks :: toksAll t

/-- The tokens of the members of an object. -/
def toksMembers : List (List Char × J) → List (List Tok)
  | [] => []
  | (k, j) :: t => (.str k :: .colon :: j.toks) :: toksMembers t
end

/-- The text of a token (jsonpb and encoding/json). -/
def Tok.text : Tok → List Char
  | .lbrace => ['{']
  | .rbrace => ['}']
  | .lbrack => ['[']
  | .rbrack => [']']
  | .colon => [':']
  | .comma => [',']
  | .null => ['n', 'u', 'l', 'l']
  | .bool b => if b then ['t', 'r', 'u', 'e'] else ['f', 'a', 'l', 's', 'e']
  | .num t => t
  | .str s => quote s

/-- The compact text of a value, as `MarshalJSON` returns it. -/
def J.text (j : J) : List Char := j.toks.flatMap Tok.text

/-! ### Reading -/

/-- The characters of a number. -/
def isNumChar (c : Char) : Bool := c.isDigit || c = '-' || c = '+' || c = '.' || c = 'e' || c = 'E'

/-- The first token of a text that does not begin with white space.
Simplification: the form of a number is checked where it is used. -/
def lexOne (l : List Char) : Option (Tok × List Char) :=
  match l with
  | '{' :: t => some (.lbrace, t)
  | '}' :: t => some (.rbrace, t)
  | '[' :: t => some (.lbrack, t)
  | ']' :: t => some (.rbrack, t)
  | ':' :: t => some (.colon, t)
  | ',' :: t => some (.comma, t)
  | 'n' :: 'u' :: 'l' :: 'l' :: t => some (.null, t)
  | 't' :: 'r' :: 'u' :: 'e' :: t => some (.bool true, t)
  | 'f' :: 'a' :: 'l' :: 's' :: 'e' :: t => some (.bool false, t)
  | '"' :: t => (string ('"' :: t)).map fun x => (.str x.1, x.2)
  | c :: t =>
    if isNumChar c then some (.num ((c :: t).takeWhile isNumChar), (c :: t).dropWhile isNumChar) else none
  | [] => none

/-- The tokens of a text; every token takes at least one character, so the length is enough fuel. -/
def lex : Nat → List Char → Option (List Tok)
  | 0, _ => none
  | n + 1, l =>
    match skip l with
    | [] => some []
    | r => (lexOne r).bind fun x => (lex n x.2).map (x.1 :: ·)

mutual
/-- A value at the front of a list of tokens, and what follows it. -/
def parse : Nat → List Tok → Option (J × List Tok)
  | 0, _ => none
  | n + 1, l =>
    match l with
    | .null :: r => some (.null, r)
    | .bool b :: r => some (.bool b, r)
    | .num t :: r => some (.num t, r)
    | .str s :: r => some (.str s, r)
    | .lbrack :: .rbrack :: r => some (.arr [], r)
    | .lbrack :: r => (parseAll n r).map fun x => (.arr x.1, x.2)
    | .lbrace :: .rbrace :: r => some (.obj [], r)
    | .lbrace :: r => (parseMembers n r).map fun x => (.obj x.1, x.2)
    | _ => none

/-- The elements of an array, one at least, up to its closing bracket. -/
def parseAll : Nat → List Tok → Option (List J × List Tok)
  | 0, _ => none
  | n + 1, l =>
    match parse n l with
    | some (j, .comma :: r) => (parseAll n r).map fun x => (j :: x.1, x.2)
    | some (j, .rbrack :: r) => some ([j], r)
    | _ => none

/-- The members of an object, one at least, up to its closing brace. -/
def parseMembers : Nat → List Tok → Option (List (List Char × J) × List Tok)
  | 0, _ => none
  | n + 1, l =>
    match l with
    | .str k :: .colon :: r =>
      match parse n r with
      | some (j, .comma :: r) => (parseMembers n r).map fun x => ((k, j) :: x.1, x.2)
      | some (j, .rbrace :: r) => some ([(k, j)], r)
      | _ => none
    | _ => none
end

/-- A text that holds one value.
Simplification: jsonpb's decoder does not look at what follows the value. -/
def J.read (l : List Char) : Option J :=
  (lex (l.length + 1) l).bind fun toks =>
    match parse (toks.length + 1) toks with
    | some (j, []) => some j
    | _ => none

end Dollar.Json
