import Verif.Model.Forth
/-
Model of the AwkwardForth compiler (src/libawkward/forth/ForthMachine.cpp:1710-2643).

Simplifications: a token is already classified by the tables of words (lines 107-213 and
`is_integer`, `is_nbit`); identifiers are numbers. The text of error messages is left out.
-/

namespace Awk.Forth
open Awk.R

/-- A token of the source, classified by the tables in ForthMachine.cpp:107-213. -/
inductive Tok where
  /-- `(`, `)`, `\`, the end of a line, and the empty token -/
  | lpar | rpar | backslash | newline | blank
  /-- `:`, `;`, `recurse`, `variable`, `input`, `output` -/
  | colon | semi | recurse | variable | input | output
  | halt | pause
  | if_ | then_ | else_
  | do_ | loop | plusLoop
  | begin_ | again | until_ | while_ | repeat_
  | exit
  /-- `!`, `+!`, `@` -/
  | put | inc | get
  | len | pos | end_ | seek | skip
  /-- `<-`, `+<-` -/
  | write | writeAdd
  | stack | rewind
  /-- `s"`, `."` -/
  | string | printString
  /-- `#!i->` and so on: repeated, big-endian, the format (ForthMachine.cpp:21-36) and, for the format
  16, the number of bits -/
  | parser (repeated big : Bool) (format width : Nat)
  /-- a name of a dtype -/
  | dtype (t : DType)
  /-- a word of `generic_builtin_words_` -/
  | builtin (code : Int)
  | int (n : Int)
  | name (k : Nat)
deriving Repr, DecidableEq

/-- The tables of names that the compiler fills, and the segments (`dictionary`). -/
structure Names where
  vars : List Nat
  inputs : List Nat
  outputs : List (Nat × DType)
  strings : Nat
  words : List (Nat × Int)
  dict : List (List Int)
deriving Repr, DecidableEq

/-- `is_input(name) || is_output(name) || is_variable(name) || is_defined(name)`. -/
def Names.used (N : Names) (k : Nat) : Bool :=
  N.inputs.contains k || (N.outputs.map Prod.fst).contains k || N.vars.contains k ||
    (N.words.map Prod.fst).contains k

/-- ForthMachine.cpp:1745-1772: the position of the closing parenthesis. -/
def scanParen (toks : List Tok) (stop : Nat) : Nat → Nat → Nat → R Nat
  | 0, _, _ => .err "'(' is missing its closing ')'"
  | fuel + 1, nesting, pos =>
    let pos := pos + 1
    if pos ≥ stop then .err "'(' is missing its closing ')'"
    else match toks[pos]? with
      | some .lpar => scanParen toks stop fuel (nesting + 1) pos
      | some .rpar => if nesting = 1 then ok pos else scanParen toks stop fuel (nesting - 1) pos
      | _ => scanParen toks stop fuel nesting pos

/-- ForthMachine.cpp:1774-1782: the position of the end of the line. -/
def scanLine (toks : List Tok) (stop : Nat) : Nat → Nat → Nat
  | 0, pos => pos
  | fuel + 1, pos =>
    if pos < stop ∧ toks[pos]? ≠ some .newline then scanLine toks stop fuel (pos + 1) else pos

/-- ForthMachine.cpp:1818-1837: the position of the `;` of a definition. -/
def scanDef (toks : List Tok) (stop : Nat) : Nat → Nat → Nat → R Nat
  | 0, _, _ => .err "definition is missing its closing ';'"
  | fuel + 1, nesting, pos =>
    let pos := pos + 1
    if pos ≥ stop then .err "definition is missing its closing ';'"
    else match toks[pos]? with
      | some .colon => scanDef toks stop fuel (nesting + 1) pos
      | some .semi => if nesting = 1 then ok pos else scanDef toks stop fuel (nesting - 1) pos
      | _ => scanDef toks stop fuel nesting pos

/-- ForthMachine.cpp:1979-2003: the positions of `then` and, possibly, `else`. -/
def scanIf (toks : List Tok) (stop : Nat) : Nat → Nat → Nat → Option Nat → R (Nat × Option Nat)
  | 0, _, _, _ => .err "'if' is missing its closing 'then'"
  | fuel + 1, nesting, pos, subelse =>
    let pos := pos + 1
    if pos ≥ stop then .err "'if' is missing its closing 'then'"
    else match toks[pos]? with
      | some .if_ => scanIf toks stop fuel (nesting + 1) pos subelse
      | some .then_ => if nesting = 1 then ok (pos, subelse)
          else scanIf toks stop fuel (nesting - 1) pos subelse
      | some .else_ => scanIf toks stop fuel nesting pos (if nesting = 1 then some pos else subelse)
      | _ => scanIf toks stop fuel nesting pos subelse

/-- ForthMachine.cpp:2068-2094: the position of `loop` or `+loop`, and which of them it is. -/
def scanDo (toks : List Tok) (stop : Nat) : Nat → Nat → Nat → R (Nat × Bool)
  | 0, _, _ => .err "'do' is missing its closing 'loop'"
  | fuel + 1, nesting, pos =>
    let pos := pos + 1
    if pos ≥ stop then .err "'do' is missing its closing 'loop'"
    else match toks[pos]? with
      | some .do_ => scanDo toks stop fuel (nesting + 1) pos
      | some .loop => if nesting = 1 then ok (pos, false) else scanDo toks stop fuel (nesting - 1) pos
      | some .plusLoop =>
        if nesting = 1 then ok (pos, true) else scanDo toks stop fuel (nesting - 1) pos
      | _ => scanDo toks stop fuel nesting pos

/-- How a `begin` ends. -/
inductive BeginEnd where
  | until_ | again | while_ (pos : Nat)
deriving Repr, DecidableEq

/-- ForthMachine.cpp:2124-2174: the end of a `begin`. `sub` counts the open `while`s of the inner
loop of the scan (0 outside of it). -/
def scanBegin (toks : List Tok) (stop : Nat) :
    Nat → Nat → Nat → Nat → BeginEnd → R (Nat × BeginEnd)
  | 0, _, _, _, _ => .err "'begin' is missing its closing 'until' or 'while ... repeat'"
  | fuel + 1, nesting, sub, pos, e =>
    let pos := pos + 1
    if pos ≥ stop then .err "'begin' is missing its closing 'until' or 'while ... repeat'"
    else if sub > 0 then
      match toks[pos]? with
      | some .while_ => scanBegin toks stop fuel nesting (sub + 1) pos e
      | some .repeat_ =>
        if sub = 1 ∧ nesting = 0 then ok (pos, e) else scanBegin toks stop fuel nesting (sub - 1) pos e
      | _ => scanBegin toks stop fuel nesting sub pos e
    else match toks[pos]? with
      | some .begin_ => scanBegin toks stop fuel (nesting + 1) 0 pos e
      | some .until_ =>
        if nesting = 1 then ok (pos, e) else scanBegin toks stop fuel (nesting - 1) 0 pos e
      | some .again =>
        if nesting = 1 then ok (pos, .again) else scanBegin toks stop fuel (nesting - 1) 0 pos e
      | some .while_ =>
        scanBegin toks stop fuel (nesting - 1) 1 pos (if nesting = 1 then .while_ pos else e)
      | _ => scanBegin toks stop fuel nesting 0 pos e

/-- ForthMachine.cpp:2289-2463: the code of a read, `~bytecode`. -/
def readCode (repeated big direct : Bool) (format : Nat) : Int :=
  -((direct.toNat + 2 * repeated.toNat + 4 * big.toNat + 8 * format : Nat) : Int) - 1

/-- ForthMachine.cpp:2253-2490 (and `is_nbit`, 1453-1482): after the name of an input. -/
def parseInput (toks : List Tok) (stop pos : Nat) (n : Nat) (N : Names) : R (List Int × Nat) :=
  if pos + 1 < stop then
    match toks[pos + 1]? with
    | some .len => ok ([14, n], 2)
    | some .pos => ok ([15, n], 2)
    | some .end_ => ok ([16, n], 2)
    | some .seek => ok ([17, n], 2)
    | some .skip => ok ([18, n], 2)
    | some (.parser repeated big format width) =>
      let nbits : List Int := if format = 16 then [(width : Int)] else []
      if format < 1 ∨ 16 < format ∨ (format = 16 ∧ (width < 1 ∨ 64 < width)) then
        .err "missing '*-> stack/output', 'seek', 'skip', 'end', 'pos', or 'len' after input name"
      else if pos + 2 < stop then
        match toks[pos + 2]? with
        | some .stack => ok ([readCode repeated big false format, n] ++ nbits, 3)
        | some (.name o) =>
          match (N.outputs.map Prod.fst).idxOf? o with
          | some o => ok ([readCode repeated big true format, n] ++ nbits ++ [(o : Int)], 3)
          | none => .err "missing 'stack' or 'output' after '*->'"
        | _ => .err "missing 'stack' or 'output' after '*->'"
      else .err "missing 'stack' or 'output' after '*->'"
    | _ => .err "missing '*-> stack/output', 'seek', 'skip', 'end', 'pos', or 'len' after input name"
  else .err "missing '*-> stack/output', 'seek', 'skip', 'end', 'pos', or 'len' after input name"

/-- ForthMachine.cpp:2492-2556: after the name of an output. -/
def parseOutput (toks : List Tok) (stop pos : Nat) (n : Nat) : R (List Int × Nat) :=
  if pos + 1 < stop then
    match toks[pos + 1]? with
    | some .write =>
      if pos + 2 < stop ∧ toks[pos + 2]? = some .stack then ok ([19, n], 3)
      else .err "missing 'stack' after '<-'"
    | some .writeAdd =>
      if pos + 2 < stop ∧ toks[pos + 2]? = some .stack then ok ([20, n], 3)
      else .err "missing 'stack' after '+<-'"
    | some (.builtin 32) => ok ([21, n], 2)
    | some .len => ok ([22, n], 2)
    | some .rewind => ok ([23, n], 2)
    | _ => .err "missing '<- stack', '+<- stack', 'dup', 'len', or 'rewind' after output name"
  else .err "missing '<- stack', '+<- stack', 'dup', 'len', or 'rewind' after output name"

/-- ForthMachine.cpp:2220-2251: after the name of a variable. -/
def parseVariable (toks : List Tok) (stop pos : Nat) (n : Nat) : R (List Int × Nat) :=
  if pos + 1 < stop then
    match toks[pos + 1]? with
    | some .put => ok ([11, n], 2)
    | some .inc => ok ([12, n], 2)
    | some .get => ok ([13, n], 2)
    | _ => .err "missing '!', '+!', or '@' after variable name"
  else .err "missing '!', '+!', or '@' after variable name"

/-- A name that may be declared: a word that is not reserved and not in use. -/
def freshName (N : Names) : Option Tok → R Nat
  | some (.name k) =>
    if N.used k then
      .err "input names, output names, variable names, and user-definedwords must all be unique"
    else ok k
  | _ => .err "input names, output names, variable names, and user-definedwords must all be unique"

/-- ForthMachine.cpp:1740-2643 `parse`: the tokens from `pos` to `stop` are compiled and appended
to `code`. -/
def parse (toks : List Tok) : (fuel : Nat) → (defn : Option Nat) → (ex dd : Nat) →
    (pos stop : Nat) → (code : List Int) → Names → R (List Int × Names)
  | 0, _, _, _, _, _, _, _ => .err "out of fuel"
  | fuel + 1, defn, ex, dd, pos, stop, code, N =>
    -- a body is a new segment of the dictionary
    let body := fun (defn : Option Nat) (ex dd a b : Nat) (N : Names) =>
      parse toks fuel defn ex dd a b [] { N with dict := N.dict ++ [[]] } >>= fun r =>
      ok ((N.dict.length : Int) + 66, { r.2 with dict := r.2.dict.set N.dict.length r.1 })
    let go := fun (n : Nat) (c : List Int) (N : Names) =>
      parse toks fuel defn ex dd (pos + n) stop (code ++ c) N
    if pos < stop then
      match toks[pos]? with
      | some .lpar => scanParen toks stop stop 1 pos >>= fun p =>
          parse toks fuel defn ex dd (p + 1) stop code N
      | some .backslash => parse toks fuel defn ex dd (scanLine toks stop stop pos + 1) stop code N
      | some .newline => go 1 [] N
      | some .blank => go 1 [] N
      | some .colon =>
        if pos + 1 ≥ stop ∨ toks[pos + 1]? = some .semi then .err "missing name in word definition"
        else freshName N toks[pos + 1]? >>= fun k =>
          scanDef toks stop stop 1 (pos + 1) >>= fun p =>
          body (some k) 0 0 (pos + 2) p
            { N with words := N.words ++ [(k, (N.dict.length : Int) + 66)] } >>= fun r =>
          parse toks fuel defn ex dd (p + 1) stop code r.2
      | some .recurse =>
        match defn with
        | none => .err "only allowed in a ': name ... ;' definition"
        | some k => go 1 ((N.words.filter (fun w => w.1 = k)).map Prod.snd) N
      | some .variable =>
        if pos + 1 ≥ stop then .err "missing name in variable declaration"
        else freshName N toks[pos + 1]? >>= fun k => go 2 [] { N with vars := N.vars ++ [k] }
      | some .input =>
        if pos + 1 ≥ stop then .err "missing name in input declaration"
        else freshName N toks[pos + 1]? >>= fun k => go 2 [] { N with inputs := N.inputs ++ [k] }
      | some .output =>
        if pos + 2 ≥ stop then .err "missing name or dtype in output declaration"
        else freshName N toks[pos + 1]? >>= fun k =>
          match toks[pos + 2]? with
          | some (.dtype t) => go 3 [] { N with outputs := N.outputs ++ [(k, t)] }
          | _ => .err "output dtype not recognized"
      | some .halt => go 1 [1] N
      | some .pause => go 1 [2] N
      | some .if_ => scanIf toks stop stop 1 pos none >>= fun p =>
          match p.2 with
          | none => body defn (ex + 1) dd (pos + 1) p.1 N >>= fun b =>
              parse toks fuel defn ex dd (p.1 + 1) stop (code ++ [3, b.1]) b.2
          | some e => body defn (ex + 1) dd (pos + 1) e N >>= fun b =>
              body defn (ex + 1) dd (e + 1) p.1 b.2 >>= fun c =>
              parse toks fuel defn ex dd (p.1 + 1) stop (code ++ [4, b.1, c.1]) c.2
      | some .do_ => scanDo toks stop stop 1 pos >>= fun p =>
          body defn (ex + 1) (dd + 1) (pos + 1) p.1 N >>= fun b =>
          parse toks fuel defn ex dd (p.1 + 1) stop (code ++ [if p.2 then 6 else 5, b.1]) b.2
      | some .begin_ => scanBegin toks stop stop 1 0 pos .until_ >>= fun p =>
          match p.2 with
          | .again => body defn (ex + 1) dd (pos + 1) p.1 N >>= fun b =>
              parse toks fuel defn ex dd (p.1 + 1) stop (code ++ [b.1, 7]) b.2
          | .until_ => body defn (ex + 1) dd (pos + 1) p.1 N >>= fun b =>
              parse toks fuel defn ex dd (p.1 + 1) stop (code ++ [b.1, 8]) b.2
          | .while_ w => body defn (ex + 1) dd (pos + 1) w N >>= fun b =>
              body defn (ex + 1) dd (w + 1) p.1 b.2 >>= fun c =>
              parse toks fuel defn ex dd (p.1 + 1) stop (code ++ [b.1, 9, c.1]) c.2
      | some .exit => go 1 [10, (ex : Int)] N
      | some .string =>
        if pos + 1 ≥ stop then .err "unclosed string after s\" word"
        else go 2 [24, (N.strings : Int)] { N with strings := N.strings + 1 }
      | some .printString =>
        if pos + 1 ≥ stop then .err "unclosed string after .\" word"
        else go 2 [25, (N.strings : Int)] { N with strings := N.strings + 1 }
      | some (.builtin c) =>
        if c = 29 ∧ dd < 1 ∨ c = 30 ∧ dd < 2 ∨ c = 31 ∧ dd < 3 then .err "only allowed in a 'do' loop"
        else if (26 ≤ c ∧ c ≤ 65) then go 1 [c] N
        else .err "not a word"
      | some (.int n) => go 1 [0, wrap 32 n] N
      | some (.name k) =>
        match N.vars.idxOf? k with
        | some n => parseVariable toks stop pos n >>= fun r => go r.2 r.1 N
        | none => match N.inputs.idxOf? k with
          | some n => parseInput toks stop pos n N >>= fun r => go r.2 r.1 N
          | none => match (N.outputs.map Prod.fst).idxOf? k with
            | some n => parseOutput toks stop pos n >>= fun r => go r.2 r.1 N
            | none => match N.words.find? (fun w => w.1 = k) with
              | some w => go 1 [w.2] N
              | none => .err "unrecognized word or wrong context for word"
      | _ => .err "unrecognized word or wrong context for word"
    else ok (code, N)

/-- ForthMachine.cpp:1710-1737 `compile`: the segment 0 is the main program. -/
def compile (toks : List Tok) : R Names :=
  parse toks (2 * toks.length + 2) none 0 0 0 toks.length [] ⟨[], [], [], 0, [], [[]]⟩ >>= fun r =>
  ok { r.2 with dict := r.2.dict.set 0 r.1 }

/-- The constructor (ForthMachine.cpp:217-255). -/
def construct {α : Type} (bits stackMax recMax : Nat) (initial : Int) (resize : Rat)
    (conv : Conv α) (toks : List Tok) : R (Machine α) :=
  compile toks >>= fun N =>
  ok ⟨bits, stackMax, recMax, initial, resize, N.vars.length, N.inputs.length,
    N.outputs.map Prod.snd, N.dict, conv⟩

end Awk.Forth
