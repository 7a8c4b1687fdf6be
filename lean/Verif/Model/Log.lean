import Verif.Model.Basic
/-!
Model of the log patterns: src/log/pattern/parser.rs, src/log/pattern/mod.rs and `Helper::format_req` (src/helper.rs:230-247).

Texts are lists of characters; positions in the pattern (byte offsets in the code) are represented by the rest of the text.
-/
namespace Wm.Log
open Wm

/-! ### The parser (src/log/pattern/parser.rs) -/

/-- src/log/pattern/parser.rs:28-32 -/
inductive Alignment where
  | left | right
deriving DecidableEq, Repr

/-- src/log/pattern/parser.rs:20-26 -/
structure Params where
  fill : Char
  align : Alignment
  minWidth : Option Nat
  maxWidth : Option Nat
deriving DecidableEq, Repr

/-- src/log/pattern/parser.rs:4-18 -/
inductive Piece where
  | text (t : Text)
  | argument (name : Text) (args : List (List Piece)) (params : Params)
  | error (t : Text)
deriving Repr

/-- External: `char::is_alphabetic` and `char::is_alphanumeric` of the Rust standard library. -/
structure Classes where
  alphabetic : Char → Bool
  alphanumeric : Char → Bool

/-- src/log/pattern/parser.rs:77-95 `name` -/
def name (k : Classes) : Text → Text × Text
  | [] => ([], [])
  | c :: r =>
    if k.alphabetic c || c == '_' then
      let tail := r.takeWhile (fun c => k.alphanumeric c || c == '_')
      (c :: tail, r.drop tail.length)
    else ([], c :: r)

/-- the value of a decimal digit -/
def digit (c : Char) : Option Nat := if '0' ≤ c ∧ c ≤ '9' then some (c.toNat - 48) else none

/-- src/log/pattern/parser.rs:164-182 `integer`, from `cur`. Overflow of `usize` (a width of 20 digits) is not modelled. -/
def integerFrom (cur : Nat) (found : Bool) : Text → Option Nat × Text
  | [] => (if found then some cur else none, [])
  | c :: r => match digit c with
    | some d => integerFrom (cur * 10 + d) true r
    | none => (if found then some cur else none, c :: r)

def integer (p : Text) : Option Nat × Text := integerFrom 0 false p

/-- src/log/pattern/parser.rs:135-143: the fill character is there if the one after it is `<` or `>` -/
def fillOf : Text → Char × Text
  | c :: '<' :: r => (c, '<' :: r)
  | c :: '>' :: r => (c, '>' :: r)
  | p => (' ', p)

/-- src/log/pattern/parser.rs:145-149 -/
def alignOf : Text → Alignment × Text
  | '<' :: r => (.left, r)
  | '>' :: r => (.right, r)
  | p => (.left, p)

/-- src/log/pattern/parser.rs:155-159 -/
def maxOf : Text → Option Nat × Text
  | '.' :: r => integer r
  | p => (none, p)

/-- src/log/pattern/parser.rs:123-162 `parameters` -/
def parameters (p : Text) : Params × Text :=
  match p with
  | ':' :: p =>
    let (fill, p) := fillOf p
    let (align, p) := alignOf p
    let (mn, p) := integer p
    let (mx, p) := maxOf p
    (⟨fill, align, mn, mx⟩, p)
  | p => (⟨' ', .left, none, none⟩, p)

def isSpecial (c : Char) : Bool := c == '{' || c == '}' || c == '(' || c == ')' || c == '\\'

/-- src/log/pattern/parser.rs:184-194 `text` -/
def textPiece (p : Text) : Piece × Text :=
  let t := p.takeWhile (fun c => !isSpecial c)
  (.text t, p.drop t.length)

/-- src/log/pattern/parser.rs:216-239: `}`, `(`, `)` must be doubled -/
def doubled (c : Char) (msg : Text) (p : Text) : Piece × Text :=
  match p with
  | d :: r => if d = c then (.text [c], r) else (.error msg, d :: r)
  | [] => (.error msg, [])

/-- src/log/pattern/parser.rs:240-265: after a backslash -/
def escaped (p : Text) : Piece × Text :=
  match p with
  | d :: r => if isSpecial d then (.text [d], r) else (.error "unexpected '\\'".toList, d :: r)
  | [] => (.error "unexpected '\\'".toList, [])

/-- src/log/pattern/parser.rs:207-214: after an argument a `}` is needed, otherwise the rest of the pattern is given up -/
def closeArg (piece : Piece) (p : Text) : Piece × Text :=
  match p with
  | '}' :: r => (piece, r)
  | _ => (.error "expected '}'".toList, [])

mutual
/-- src/log/pattern/parser.rs:200-269 `next`. `fuel` bounds the depth of calls; see `pieces_fuel` for why it is enough. -/
def next (k : Classes) : Nat → Text → Option (Piece × Text)
  | 0, _ => none
  | _ + 1, [] => none
  | n + 1, c :: r =>
    if c = '{' then
      match r with
      | '{' :: r => some (.text ['{'], r)
      | r =>
        let nm := name k r
        match args k n nm.2 with
        | (some as, p) => let ps := parameters p; some (closeArg (.argument nm.1 as ps.1) ps.2)
        | (none, p) => some (closeArg (.error "unclosed '('".toList) p)
    else if c = '}' then some (doubled '}' "unmatched '}'".toList r)
    else if c = '(' then some (doubled '(' "unexpected '('".toList r)
    else if c = ')' then some (doubled ')' "unexpected ')'".toList r)
    else if c = '\\' then some (escaped r)
    else some (textPiece (c :: r))

/-- src/log/pattern/parser.rs:97-103 `args`; `none`: an argument is not closed -/
def args (k : Classes) : Nat → Text → Option (List (List Piece)) × Text
  | 0, _ => (none, [])
  | n + 1, p =>
    match p with
    | '(' :: r => match pieces k n true r with
      | (ps, p, true) => match args k n p with
        | (some as, p) => (some (ps :: as), p)
        | (none, p) => (none, p)
      | (_, p, false) => (none, p)
    | p => (some [], p)

/-- src/log/pattern/parser.rs:105-121 `arg` after its `(` (`inArg`), and the whole pattern (`Parser::map(..).collect()`,
    src/log/pattern/mod.rs:776, not `inArg`). The third result tells whether the `)` was found. -/
def pieces (k : Classes) : Nat → Bool → Text → List Piece × Text × Bool
  | 0, _, _ => ([], [], false)
  | n + 1, inArg, p =>
    if inArg && p.head? == some ')' then ([], p.tail, true)
    else match next k n p with
      | none => ([], p, false)
      | some (x, p) => let rest := pieces k n inArg p; (x :: rest.1, rest.2)
end

/-- fuel that is enough for a pattern -/
def enough (p : Text) : Nat := 3 * p.length + 3

/-- `Parser::new(pattern)` as an iterator, collected -/
def parse (k : Classes) (p : Text) : List Piece := (pieces k (enough p) false p).1

/-! ### From pieces to chunks (src/log/pattern/mod.rs:372-547) -/

/-- The formatters without arguments (src/log/pattern/mod.rs:446-456, 499-515) -/
inductive Field where
  | level | message | module_ | newline | file | line | thread | threadId | pid | tid | target
  | clientIp | clientUser | url | path | query | host | status | upStatus | bodyBytesSent | referer | userAgent | cookie
  | sslProtocol | sslCipher | upAddr | requestTime | upResponseTime
deriving DecidableEq, Repr

/-- src/log/pattern/mod.rs:446-456, 499-515 -/
def fieldOf (n : Text) : Option Field :=
  let n := String.ofList n
  if n = "l" ∨ n = "level" then some .level
  else if n = "m" ∨ n = "message" then some .message
  else if n = "M" ∨ n = "module" then some .module_
  else if n = "n" then some .newline
  else if n = "f" ∨ n = "file" then some .file
  else if n = "L" ∨ n = "line" then some .line
  else if n = "T" ∨ n = "thread" then some .thread
  else if n = "I" ∨ n = "thread_id" then some .threadId
  else if n = "P" ∨ n = "pid" then some .pid
  else if n = "i" ∨ n = "tid" then some .tid
  else if n = "t" ∨ n = "target" then some .target
  else if n = "client_ip" then some .clientIp
  else if n = "client_user" then some .clientUser
  else if n = "url" then some .url
  else if n = "path" then some .path
  else if n = "query" then some .query
  else if n = "host" then some .host
  else if n = "status" then some .status
  else if n = "up_status" then some .upStatus
  else if n = "body_bytes_sent" then some .bodyBytesSent
  else if n = "referer" then some .referer
  else if n = "user_agent" then some .userAgent
  else if n = "cookie" then some .cookie
  else if n = "ssl_protocol" then some .sslProtocol
  else if n = "ssl_cipher" then some .sslCipher
  else if n = "up_addr" then some .upAddr
  else if n = "request_time" then some .requestTime
  else if n = "up_response_time" then some .upResponseTime
  else none

/-- src/log/pattern/mod.rs:297-304, 556-591 -/
inductive Chunk where
  | text (t : Text)
  | error (t : Text)
  | field (f : Field) (params : Params)
  | time (fmt : Text) (utc : Bool) (params : Params)
  /-- `Align` (`highlight = false`) and `Highlight` -/
  | group (highlight : Bool) (cs : List Chunk) (params : Params)
deriving Repr

/-- src/log/pattern/mod.rs:388-400: one piece of a date argument as text -/
def dateTextOf : Piece → Text
  | .text t => t
  | .argument .. => "{ERROR: unexpected formatter}".toList
  | .error e => "{ERROR: ".toList ++ e ++ "}".toList

/-- src/log/pattern/mod.rs:385-404: the text of a date argument -/
def dateText (ps : List Piece) : Text := ps.flatMap dateTextOf

def isDate (n : Text) : Bool := n == "d".toList || n == "date".toList
def isHighlight (n : Text) : Bool := n == "h".toList || n == "highlight".toList

/-- src/log/pattern/mod.rs:406-422: `ok true` is UTC; otherwise the message for an invalid zone -/
def zoneOf : List (List Piece) → Except Text Bool
  | _ :: (.text z :: _) :: _ =>
    if z = "utc".toList then .ok true
    else if z = "local".toList then .ok false
    else .error ("invalid timezone `".toList ++ z ++ "`".toList)
  | _ :: _ :: _ => .error "invalid timezone".toList
  | _ => .ok false

/-- src/log/pattern/mod.rs:380-428 -/
def dateChunk (as : List (List Piece)) (ps : Params) : Chunk :=
  if as.length > 2 then .error "expected at most two arguments".toList
  else match zoneOf as with
    | .error e => .error e
    | .ok utc => .time (match as with | a :: _ => dateText a | [] => "%+".toList) utc ps

def isMdc (n : Text) : Bool := n == "X".toList || n == "mdc".toList

/-- src/log/pattern/mod.rs:465-492: the key or the default of an MDC formatter is a text; otherwise the message -/
def mdcArg (what : String) : List Piece → Option Text
  | .text _ :: _ => none
  | .error e :: _ => some e
  | _ => some ("invalid MDC ".toList ++ what.toList)

/-- src/log/pattern/mod.rs:458-498. An MDC formatter prints nothing (647-650), so it is a group of nothing here. -/
def mdcChunk (as : List (List Piece)) (ps : Params) : Chunk :=
  match as with
  | [] => .error "missing MDC key".toList
  | [key] => match mdcArg "key" key with
    | some e => .error e
    | none => .group false [] ps
  | [key, dflt] => match mdcArg "key" key with
    | some e => .error e
    | none => match mdcArg "default" dflt with
      | some e => .error e
      | none => .group false [] ps
  | _ => .error "expected at most two arguments".toList

mutual
/-- src/log/pattern/mod.rs:372-539 `From<Piece> for Chunk` -/
def chunkOf : Piece → Chunk
  | .text t => .text t
  | .error e => .error e
  | .argument n as ps =>
    if isDate n then dateChunk as ps
    else if isMdc n then mdcChunk as ps
    else match isHighlight n || n.isEmpty, as with
      | true, [a] => .group (isHighlight n) (chunksOf a) ps
      | true, _ => .error "expected exactly one argument".toList
      | false, as => match fieldOf n with
        | none => .error ("unknown formatter `".toList ++ n ++ "`".toList)
        | some f => if as.isEmpty then .field f ps else .error "unexpected arguments".toList

def chunksOf : List Piece → List Chunk
  | [] => []
  | p :: r => chunkOf p :: chunksOf r
end

/-! ### Writers (src/log/pattern/mod.rs:145-294) -/

/-- src/log/pattern/mod.rs:145-147 -/
def isBoundary (b : UInt8) : Bool := b < 0x80 || 0xC0 ≤ b

/-- src/log/pattern/mod.rs:149-151 `char_starts` -/
def starts (b : Bytes) : Nat := b.countP isBoundary

/-- What the outermost writer is given is written through these layers. A sink takes, of each non-empty buffer, at least one
    byte and as many as it likes: `short` lists how many for the next writes (then everything). It never fails. -/
inductive Wr where
  | sink (out : Bytes) (short : List Nat)
  | max (remaining : Nat) (w : Wr)
  | left (toFill : Nat) (fill : Char) (w : Wr)
  /-- the buffer is a list of data, separated by styles (`none`) -/
  | right (toFill : Nat) (fill : Char) (w : Wr) (buf : List (Option Bytes))
deriving DecidableEq, Repr

/-- src/log/pattern/mod.rs:160-172: the bytes before the first start of a character that does not fit -/
def cut : Nat → Bytes → Bytes
  | _, [] => []
  | r, b :: bs => if isBoundary b then (match r with | 0 => [] | r + 1 => b :: cut r bs) else b :: cut r bs

/-- src/log/pattern/mod.rs:272-280 -/
def pushData (buf : List (Option Bytes)) (b : Bytes) : List (Option Bytes) :=
  match buf.getLast? with
  | some (some d) => buf.dropLast ++ [some (d ++ b)]
  | _ => buf ++ [some b]

/-- the accepted part of a buffer of `n` bytes, for the answer `k` of the sink -/
def accept (k n : Nat) : Nat := min n (Nat.max 1 k)

/-- `io::Write::write` of the four writers: src/log/pattern/mod.rs:159-191 (max), 220-228 (left), 269-282 (right); the new
    writer and the number of bytes taken -/
def Wr.write : Wr → Bytes → Wr × Nat
  | .sink out [], b => (.sink (out ++ b) [], b.length)
  | .sink out (k :: ks), b => (.sink (out ++ b.take (accept k b.length)) ks, accept k b.length)
  | .max r w, b =>
    let c := cut r b
    if c.length = 0 then (.max r w, b.length)
    else
      let (w', len) := w.write c
      (.max (r - starts (c.take len)) w', len)
  | .left n f w, b =>
    let (w', len) := w.write b
    (.left (n - starts (b.take len)) f w', len)
  | .right n f w buf, b => (.right (n - starts b) f w (pushData buf b), b.length)

/-- `io::Write::write_all` of the standard library: repeat until nothing is left (`fuel`: each write takes at least one byte;
    a write of 0 bytes would be an error, `writeAll_progress` shows it does not occur) -/
def Wr.writeAllN : Nat → Wr → Bytes → Wr
  | 0, w, _ => w
  | _ + 1, w, [] => w
  | n + 1, w, b => Wr.writeAllN n (w.write b).1 (b.drop (w.write b).2)

def Wr.writeAll (w : Wr) (b : Bytes) : Wr := Wr.writeAllN b.length w b

/-- the same character `n` times, each written on its own (src/log/pattern/mod.rs:212-214, 255-257) -/
def Wr.fillUp : Nat → Char → Wr → Wr
  | 0, _, w => w
  | n + 1, c, w => Wr.fillUp n c (w.writeAll (utf8Char c))

/-- `set_style`: a right-aligning writer keeps it in its buffer, the others hand it on, and the sink ignores it -/
def Wr.setStyle : Wr → Wr
  | .sink out ks => .sink out ks
  | .max r w => .max r w.setStyle
  | .left n f w => .left n f w.setStyle
  | .right n f w buf => .right n f w (buf ++ [none])

/-- src/log/pattern/mod.rs:258-263 -/
def writeOut (w : Wr) : List (Option Bytes) → Wr
  | [] => w
  | some d :: r => writeOut (w.writeAll d) r
  | none :: r => writeOut w.setStyle r

/-- src/log/pattern/mod.rs:211-216, 254-265 `finish`; gives the writer below. The two other writers have none. -/
def Wr.finish : Wr → Wr
  | .left n f w => Wr.fillUp n f w
  | .right n f w buf => writeOut (Wr.fillUp n f w) buf
  | w => w

/-- the writer below, without `finish` -/
def Wr.inner : Wr → Wr
  | .max _ w => w
  | .left _ _ w => w
  | .right _ _ w _ => w
  | w => w

/-- src/log/pattern/mod.rs:313-361: the layers for a formatter -/
def wrap (ps : Params) (w : Wr) : Wr :=
  match ps.minWidth, ps.maxWidth, ps.align with
  | none, none, _ => w
  | none, some mx, _ => .max mx w
  | some mn, none, .left => .left mn ps.fill w
  | some mn, none, .right => .right mn ps.fill w []
  | some mn, some mx, .left => .left mn ps.fill (.max mx w)
  | some mn, some mx, .right => .right mn ps.fill (.max mx w) []

/-- the end of the formatter: `finish`, and back to the writer it was given -/
def unwrap (ps : Params) (w : Wr) : Wr :=
  match ps.minWidth, ps.maxWidth with
  | none, none => w
  | none, some _ => w.inner
  | some _, none => w.finish
  | some _, some _ => w.finish.inner

/-- What is logged: the pieces of text each field is written in, and the time in a format (`none`: chrono reports an invalid
    format), and whether the level has a style. External: the request, the clock, `chrono`. -/
structure Rec where
  field : Field → List Text
  time : Text → Bool → Option (List Text)
  styled : Bool

def writeTexts (w : Wr) : List Text → Wr
  | [] => w
  | t :: r => writeTexts (w.writeAll (utf8 t)) r

mutual
/-- src/log/pattern/mod.rs:307-369 `Chunk::encode` and 594-744 `FormattedChunk::encode`; `none` is an error.
    Simplification: `client_ip` and `???` are written with `write` in the code; here with `write_all`, which is the same for the
    only sink in use, a `Vec` (a buffer that takes everything). -/
def encode (rec : Rec) (w : Wr) : Chunk → Option Wr
  | .text t => some (w.writeAll (utf8 t))
  | .error e => some (writeTexts w ["{ERROR: ".toList, e, "}".toList])
  | .field f ps => some (unwrap ps (writeTexts (wrap ps w) (rec.field f)))
  | .time fmt utc ps => (rec.time fmt utc).map (fun ts => unwrap ps (writeTexts (wrap ps w) ts))
  | .group h cs ps =>
    let style := fun w : Wr => if h && rec.styled then w.setStyle else w
    (encodeList rec (style (wrap ps w)) cs).map (fun w => unwrap ps (style w))

/-- one after the other -/
def encodeList (rec : Rec) (w : Wr) : List Chunk → Option Wr
  | [] => some w
  | c :: r => match encode rec w c with
    | none => none
    | some w => encodeList rec w r
end

/-- what came out at the bottom -/
def Wr.out : Wr → Bytes
  | .sink o _ => o
  | .max _ w => w.out
  | .left _ _ w => w.out
  | .right _ _ w _ => w.out

/-- src/helper.rs:230-247 `Helper::format_req`: an error is a panic (`unwrap`, line 245) -/
def formatReq (k : Classes) (rec : Rec) (pattern : Text) : Res Text :=
  match encodeList rec (.sink [] []) (chunksOf (parse k pattern)) with
  | none => .panic
  | some w => .ok (lossy w.out)

end Wm.Log
