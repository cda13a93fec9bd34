import Verif.Model.StringOps
/-! Model of `GlobExpression` (wizard/token.c). A pointer into a C string is the list of bytes from it
to the NUL; `[]` points at the NUL. -/
namespace Wizard

/-- `*p`. -/
def peek (p : List Byte) : Byte := p.headD 0

/-- `p++`. Moving beyond the NUL is undefined behaviour here, since the code reads every pointer it
moves. -/
def adv (p : List Byte) : Res (List Byte) :=
  match p with
  | [] => .ub
  | _ :: r => .ok r

/-- `if (b) p++`. -/
def advIf (b : Bool) (p : List Byte) : Res (List Byte) := if b then adv p else .ok p

/-- token.c:358-363: after a hit, skip to the closing bracket. -/
def skipBracket : List Byte → List Byte
  | [] => []
  | c :: r =>
    if c = asc ']' then c :: r
    else if c = asc '\\' then
      match r with
      | [] => []
      | _ :: r => skipBracket r
    else skipBracket r

/-- token.c:357-368: a bracket item hit: new (pattern, expression, done). -/
def bracketHit (pat expr : List Byte) : Res (List Byte × List Byte × Bool) := do
  let pat ← adv pat
  let pat := skipBracket pat
  if peek pat ≠ 0 then do
    let pat ← adv pat
    let expr ← adv expr
    pure (pat, expr, false)
  else pure (pat, expr, false)

/-- token.c:311-370: the `for ( ; ; )` loop of a bracket expression, entered after the `[`; `char`
is signed, hence `BitVec.slt`. Every iteration moves the pattern, so its length is enough fuel;
running out of fuel is reported as `fatal` and proved impossible (`C10_glob_terminates`). -/
def bracketLoop (expr : List Byte) : Nat → List Byte → Res (List Byte × List Byte × Bool)
  | 0, _ => .fatal
  | f + 1, pat =>
    if peek pat = 0 ∨ peek pat = asc ']' then .ok (pat, expr, true)
    else do
      -- token.c:318-326
      let pat ← advIf (peek pat = asc '\\') pat
      if peek pat = 0 then pure (pat, expr, true)
      else do
        let nxt ← adv pat
        if peek nxt = asc '-' then do
          -- token.c:329-349
          let c := peek pat
          let pat ← adv nxt
          if peek pat = asc ']' then pure (pat, expr, true)
          else do
            let esc : Bool := peek pat = asc '\\'
            let pat ← advIf esc pat
            if esc ∧ peek pat = 0 then pure (pat, expr, true)
            else if (peek expr).slt c ∨ (peek pat).slt (peek expr) then do
              let pat ← adv pat
              bracketLoop expr f pat
            else bracketHit pat expr
        else if peek pat ≠ peek expr then do
          let pat ← adv pat
          bracketLoop expr f pat
        else bracketHit pat expr

/-- token.c:389-398: compare one alternative. Returns (p, pattern, match). -/
def braceCompare : Nat → List Byte → List Byte → Bool → Res (List Byte × List Byte × Bool)
  | 0, _, _, _ => .fatal
  | f + 1, p, pat, m =>
    if peek p ≠ 0 ∧ peek pat ≠ 0 ∧ peek pat ≠ asc ',' ∧ peek pat ≠ asc '}' ∧ m = true then do
      let pat ← advIf (peek pat = asc '\\') pat
      let m := decide (peek pat = peek p)
      let p ← adv p
      let pat ← adv pat
      braceCompare f p pat m
    else .ok (p, pat, m)

/-- token.c:408-417 and 421-431: skip to the end of the alternatives (`all`) or of this one. -/
def braceSkip (all : Bool) : Nat → List Byte → Res (List Byte)
  | 0, _ => .fatal
  | f + 1, pat =>
    if peek pat ≠ asc '}' ∧ peek pat ≠ 0 ∧ (all = true ∨ peek pat ≠ asc ',') then do
      let pat ← adv pat
      if peek pat = asc '\\' then do
        let pat ← adv pat
        if peek pat = asc '}' ∨ (all = false ∧ peek pat = asc ',') then do
          let pat ← adv pat
          braceSkip all f pat
        else braceSkip all f pat
      else braceSkip all f pat
    else .ok pat

/-- token.c:385-435: the loop over alternatives, entered after the `{`. The loop condition is tested
again after the closing brace has been skipped, so the text after `}` is scanned as if it were a
further alternative. -/
def braceLoop : Nat → List Byte → List Byte → Res (List Byte × List Byte × Bool)
  | 0, _, _ => .fatal
  | f + 1, expr, pat =>
    if peek pat ≠ asc '}' ∧ peek pat ≠ 0 then do
      let (p, pat, m) ← braceCompare (pat.length + 1) expr pat true
      if peek pat = 0 then pure (pat, expr, true)
      else do
        let expr := if m then p else expr
        let pat ← braceSkip m (pat.length + 1) pat
        if peek pat ≠ 0 then do
          let pat ← adv pat
          braceLoop f expr pat
        else braceLoop f expr pat
    else .ok (pat, expr, false)

/-- token.c:466-469: the verdict. -/
def globEnd (expr pat : List Byte) : Bool :=
  peek expr = 0 ∧ peek (pat.dropWhile (· == asc '*')) = 0

/-- token.c:294-295: `while ((*expression != '\0') && (status == WizardFalse))
status=GlobExpression(expression++,pattern,case_insensitive)`. -/
def starLoop (glob : List Byte → Res Bool) : List Byte → Res Bool
  | [] => .ok false
  | c :: r => do
    let status ← glob (c :: r)
    if status then pure true else starLoop glob r

/-- token.c:448-457: the comparison of a literal character; `tolower` in the "C" locale. -/
def globSame (ci : Bool) (x c : Byte) : Bool :=
  if ci then cLocaleLower x == cLocaleLower c else x == c

/-- token.c:269-274: the patterns answered at once. `LocaleCompare(pattern,"*")==0` holds only for the
pattern "*". -/
def globTrivial (pat : List Byte) : Bool := pat == [] || pat == [asc '*']

/-- token.c:279-469: the main loop, with `done` false. The recursive call of `GlobExpression` (295)
is `globTrivial` and this loop. The pattern gets shorter at every turn and recursion; the fuel is its
length plus one. -/
def globLoop (ci : Bool) : Nat → List Byte → List Byte → Res Bool
  | 0, _, _ => .fatal
  | f + 1, expr, pat =>
    match pat with
    | [] => .ok (globEnd expr pat)
    | c :: r =>
      if expr = [] ∧ c ≠ asc '{' ∧ c ≠ asc '*' then .ok (globEnd expr pat)
      else if c = asc '*' then do
        let pat := pat.dropWhile (· == asc '*')
        let status ← starLoop
          (fun e => if globTrivial pat then .ok true else globLoop ci f e pat) expr
        if status then globLoop ci f [] [] else globLoop ci f [] pat
      else if c = asc '[' then do
        let (pat, expr, done) ← bracketLoop expr (r.length + 1) r
        if done then pure (globEnd expr pat) else globLoop ci f expr pat
      else if c = asc '?' then do
        let expr ← adv expr
        globLoop ci f expr r
      else if c = asc '{' then do
        let (pat, expr, done) ← braceLoop (r.length + 1) expr r
        if done then pure (globEnd expr pat) else globLoop ci f expr pat
      else do
        let pat ← advIf (c = asc '\\') pat
        if c = asc '\\' ∧ peek pat = 0 then globLoop ci f expr pat
        else if globSame ci (peek expr) (peek pat) then do
          let expr ← adv expr
          let pat ← adv pat
          globLoop ci f expr pat
        else pure (globEnd expr pat)

/-- token.c:259-470 `GlobExpression` for a non-NULL pattern. -/
def globExpression (expr pat : List Byte) (ci : Bool) : Res Bool :=
  if globTrivial pat then .ok true else globLoop ci (pat.length + 1) expr pat

end Wizard
