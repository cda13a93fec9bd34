import Verif.Model.Glob
/-! Model of `GetNextToken` (wizard/token.c). A pointer into the text is the list of bytes from it to
the NUL (`peek`, `adv` of Model/Glob); the token buffer has `cap` bytes, of which the first `i` hold
`tok`. -/
namespace Wizard

/-- `isalpha` in the "C" locale. -/
def isAlpha (c : Byte) : Bool :=
  (asc 'A' ≤ c && c ≤ asc 'Z') || (asc 'a' ≤ c && c ≤ asc 'z')

/-- `if (i < (ssize_t) (extent-1)) token[i++]=c` (token.c:151-152 and passim), for `extent ≥ 1`. -/
def tokPush (cap extent : Nat) (tok : List Byte) (c : Byte) : Res (List Byte) :=
  if tok.length < extent - 1 then
    if tok.length < cap then .ok (tok ++ [c]) else .ub
  else .ok tok

/-- `if (i < (ssize_t) (extent-1)) token[i++]=(*p++)` (token.c:158-159 and passim): new (p, token). -/
def tokTake (cap extent : Nat) (p tok : List Byte) : Res (List Byte × List Byte) :=
  if tok.length < extent - 1 then
    if tok.length < cap then do
      let r ← adv p
      pure (r, tok ++ [peek p])
    else .ub
  else .ok (p, tok)

/-- token.c:141-153: the body of a quoted token, up to the closing character. -/
def tokQuoted (cap extent : Nat) (escape : Byte) : List Byte → List Byte →
    Res (List Byte × List Byte)
  | [], tok => .ok ([], tok)
  | [c], tok =>
    if c = escape then .ok ([], tok)
    else do
      let tok ← tokPush cap extent tok c
      pure ([], tok)
  | c :: d :: r, tok =>
    if c = asc '\\' ∧ (d = escape ∨ d = asc '\\') then do
      let tok ← tokPush cap extent tok d
      tokQuoted cap extent escape r tok
    else if c = escape then .ok (d :: r, tok)
    else do
      let tok ← tokPush cap extent tok c
      tokQuoted cap extent escape (d :: r) tok

/-- token.c:201-207: the text after `(`; `prev` is `*(p-1)`. Stops at an unescaped `)` (pointing at
it) or at the NUL. -/
def tokParen (cap extent : Nat) (prev : Byte) : List Byte → List Byte →
    Res (List Byte × List Byte)
  | [], tok => .ok ([], tok)
  | c :: r, tok => do
    let tok ← tokPush cap extent tok c
    if c = asc ')' ∧ prev ≠ asc '\\' then pure (c :: r, tok) else tokParen cap extent c r tok

/-- token.c:191-192: a delimiter character. -/
def tokDelim (c : Byte) : Bool :=
  isSpace c || c == asc '=' || c == asc ',' || c == asc ':' || c == asc ';'

/-- token.c:189-208: a word; `prev` is `*(p-1)`. After `(` has run into the NUL the `p++` of the outer
`for` moves beyond it, and the next test reads there. Fuel: the length of the text plus one. -/
def tokWord (cap extent : Nat) : Nat → Byte → List Byte → List Byte → Res (List Byte × List Byte)
  | 0, _, _, _ => .fatal
  | _ + 1, _, [], tok => .ok ([], tok)
  | f + 1, prev, c :: r, tok =>
    if tokDelim c ∧ prev ≠ asc '\\' then .ok (c :: r, tok)
    else if tok.length > 0 ∧ c = asc '<' then .ok (c :: r, tok)
    else do
      let tok ← tokPush cap extent tok c
      if c = asc '>' then pure (c :: r, tok)
      else if c = asc '(' then do
        let (p, tok) ← tokParen cap extent c r tok
        let q ← adv p
        tokWord cap extent f (peek p) q tok
      else tokWord cap extent f c r tok

/-- token.c:174-176: copy the characters of a number up to `q` (the first `n`) or a comma. -/
def tokNumber (cap extent : Nat) : Nat → List Byte → List Byte → Res (List Byte × List Byte)
  | 0, p, tok => .ok (p, tok)
  | n + 1, p, tok =>
    if peek p = asc ',' then .ok (p, tok)
    else do
      let tok ← tokPush cap extent tok (peek p)
      let p ← adv p
      tokNumber cap extent n p tok

/-- token.c:117-211: scan one token; returns (p, the `i` bytes of the token). `number` stands for
`StringToDouble(p,&q)`, giving `q-p`: how many characters `strtod` takes. -/
def tokScan (number : List Byte → Nat) (cap extent : Nat) (s : List Byte) :
    Res (List Byte × List Byte) :=
  let p := s.dropWhile isSpace
  match p with
  | [] => .ok ([], [])
  | c :: r =>
    if c = asc '"' then tokQuoted cap extent (asc '"') r []
    else if c = asc '\'' ∨ c = asc '`' then tokQuoted cap extent (asc '\'') r []
    else if c = asc '{' then tokQuoted cap extent (asc '}') r []
    else if c = asc '/' then do
      let (p, tok) ← tokTake cap extent p []
      if peek p = asc '>' ∨ peek p = asc '/' then tokTake cap extent p tok else pure (p, tok)
    else if number p ≠ 0 ∧ c ≠ asc ',' then do
      let (p, tok) ← tokNumber cap extent (number p) p []
      if peek p = asc '%' then tokTake cap extent p tok else pure (p, tok)
    else if isAlpha c = false ∧ c ≠ asc '/' ∧ c ≠ asc '#' ∧ c ≠ asc '<' then
      tokTake cap extent p []
    else tokWord cap extent (p.length + 1) 0 p []

/-- token.c:212-224: terminate the token and unwrap `url(...)`. The copy within the buffer
(`CopyWizardString(token,token+offset,WizardPathExtent)`) moves the text down by `offset`; then
`token[i-offset-1]='\0'`, an index of -1 if the token is no longer than `offset`. -/
def tokFinish (fold : Byte → Byte) (cap : Nat) (tok : List Byte) : Res (List Byte) :=
  if tok.length < cap then do
    let cmp ← localeNCompare fold (some tok) (some ("url(".toList.map asc)) 4
    if cmp = 0 then
      let offset := if peek (tok.drop 4) = asc '#' then 5 else 4
      if tok.length < offset + 1 then .ub
      else .ok ((tok.drop offset).take (tok.length - offset - 1))
    else pure tok
  else .ub

/-- token.c:103-229 `GetNextToken(start,&end,extent,token)`: (end, token). The first `*(p-1)` of the
word loop is only evaluated after a delimiter test that fails for the first character, so its value
(0 in the model) does not matter. -/
def getNextToken (fold : Byte → Byte) (number : List Byte → Nat) (cap extent : Nat)
    (s : List Byte) : Res (List Byte × List Byte) := do
  let (p, tok) ← tokScan number cap extent s
  let tok ← tokFinish fold cap tok
  pure (p.dropWhile isSpace, tok)

end Wizard
