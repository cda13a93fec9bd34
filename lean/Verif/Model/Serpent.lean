import Verif.Model.AESTables
import Verif.Model.StringInfo
/-! serpent.c.  The S-box, linear-transformation and key macros are transcribed statement by
statement, a macro expanded on registers becoming a function of the four words it reads; the bodies
of `EncipherSerpentBlock`, `DecipherSerpentBlock` and `SetSerpentKey` are kept as the lists of
macro lines they are, with the registers each line names, and run by `SerpentOp.step`. -/
namespace Wizard

/-- The local variables of the block and key functions (serpent.c:241-246, 485-490, 668-673);
also the five parameters of a macro after it has run. -/
structure SerpentRegs where
  alpha : Word
  beta : Word
  gamma : Word
  delta : Word
  epsilon : Word
  deriving DecidableEq, Repr

/-- serpent.c:397-401 `RotateLeft`. -/
def serpentRotateLeft (x : Word) (n : Nat) : Word := x <<< n ||| x >>> (32 - n)

/-- serpent.c:149-152 `RotateRight`. -/
def serpentRotateRight (x : Word) (n : Nat) : Word := x >>> n ||| x <<< (32 - n)

/-- serpent.c:416-422 `EncipherSbox0`.  `epsilon` is assigned before it is read. -/
def encipherSbox0 (alpha beta gamma delta : Word) : SerpentRegs :=
  let epsilon := delta
  let delta := delta ||| alpha
  let alpha := alpha ^^^ epsilon
  let epsilon := epsilon ^^^ gamma
  let epsilon := ~~~epsilon
  let delta := delta ^^^ beta
  let beta := beta &&& alpha
  let beta := beta ^^^ epsilon
  let gamma := gamma ^^^ alpha
  let alpha := alpha ^^^ delta
  let epsilon := epsilon ||| alpha
  let alpha := alpha ^^^ gamma
  let gamma := gamma &&& beta
  let delta := delta ^^^ gamma
  let beta := ~~~beta
  let gamma := gamma ^^^ epsilon
  let beta := beta ^^^ gamma
  ⟨alpha, beta, gamma, delta, epsilon⟩

/-- serpent.c:423-430 `EncipherSbox1`.  `epsilon` is assigned before it is read. -/
def encipherSbox1 (alpha beta gamma delta : Word) : SerpentRegs :=
  let epsilon := beta
  let beta := beta ^^^ alpha
  let alpha := alpha ^^^ delta
  let delta := ~~~delta
  let epsilon := epsilon &&& beta
  let alpha := alpha ||| beta
  let delta := delta ^^^ gamma
  let alpha := alpha ^^^ delta
  let beta := beta ^^^ delta
  let delta := delta ^^^ epsilon
  let beta := beta ||| epsilon
  let epsilon := epsilon ^^^ gamma
  let gamma := gamma &&& alpha
  let gamma := gamma ^^^ beta
  let beta := beta ||| alpha
  let alpha := ~~~alpha
  let alpha := alpha ^^^ gamma
  let epsilon := epsilon ^^^ beta
  ⟨alpha, beta, gamma, delta, epsilon⟩

/-- serpent.c:431-437 `EncipherSbox2`.  `epsilon` is assigned before it is read. -/
def encipherSbox2 (alpha beta gamma delta : Word) : SerpentRegs :=
  let delta := ~~~delta
  let beta := beta ^^^ alpha
  let epsilon := alpha
  let alpha := alpha &&& gamma
  let alpha := alpha ^^^ delta
  let delta := delta ||| epsilon
  let gamma := gamma ^^^ beta
  let delta := delta ^^^ beta
  let beta := beta &&& alpha
  let alpha := alpha ^^^ gamma
  let gamma := gamma &&& delta
  let delta := delta ||| beta
  let alpha := ~~~alpha
  let delta := delta ^^^ alpha
  let epsilon := epsilon ^^^ alpha
  let alpha := alpha ^^^ gamma
  let beta := beta ||| gamma
  ⟨alpha, beta, gamma, delta, epsilon⟩

/-- serpent.c:438-445 `EncipherSbox3`.  `epsilon` is assigned before it is read. -/
def encipherSbox3 (alpha beta gamma delta : Word) : SerpentRegs :=
  let epsilon := beta
  let beta := beta ^^^ delta
  let delta := delta ||| alpha
  let epsilon := epsilon &&& alpha
  let alpha := alpha ^^^ gamma
  let gamma := gamma ^^^ beta
  let beta := beta &&& delta
  let gamma := gamma ^^^ delta
  let alpha := alpha ||| epsilon
  let epsilon := epsilon ^^^ delta
  let beta := beta ^^^ alpha
  let alpha := alpha &&& delta
  let delta := delta &&& epsilon
  let delta := delta ^^^ gamma
  let epsilon := epsilon ||| beta
  let gamma := gamma &&& beta
  let epsilon := epsilon ^^^ delta
  let alpha := alpha ^^^ delta
  let delta := delta ^^^ gamma
  ⟨alpha, beta, gamma, delta, epsilon⟩

/-- serpent.c:446-452 `EncipherSbox4`.  `epsilon` is assigned before it is read. -/
def encipherSbox4 (alpha beta gamma delta : Word) : SerpentRegs :=
  let epsilon := delta
  let delta := delta &&& alpha
  let alpha := alpha ^^^ epsilon
  let delta := delta ^^^ gamma
  let gamma := gamma ||| epsilon
  let alpha := alpha ^^^ beta
  let epsilon := epsilon ^^^ delta
  let gamma := gamma ||| alpha
  let gamma := gamma ^^^ beta
  let beta := beta &&& alpha
  let beta := beta ^^^ epsilon
  let epsilon := epsilon &&& gamma
  let gamma := gamma ^^^ delta
  let epsilon := epsilon ^^^ alpha
  let delta := delta ||| beta
  let beta := ~~~beta
  let delta := delta ^^^ alpha
  ⟨alpha, beta, gamma, delta, epsilon⟩

/-- serpent.c:453-459 `EncipherSbox5`.  `epsilon` is assigned before it is read. -/
def encipherSbox5 (alpha beta gamma delta : Word) : SerpentRegs :=
  let epsilon := beta
  let beta := beta ||| alpha
  let gamma := gamma ^^^ beta
  let delta := ~~~delta
  let epsilon := epsilon ^^^ alpha
  let alpha := alpha ^^^ gamma
  let beta := beta &&& epsilon
  let epsilon := epsilon ||| delta
  let epsilon := epsilon ^^^ alpha
  let alpha := alpha &&& delta
  let beta := beta ^^^ delta
  let delta := delta ^^^ gamma
  let alpha := alpha ^^^ beta
  let gamma := gamma &&& epsilon
  let beta := beta ^^^ gamma
  let gamma := gamma &&& alpha
  let delta := delta ^^^ gamma
  ⟨alpha, beta, gamma, delta, epsilon⟩

/-- serpent.c:460-466 `EncipherSbox6`.  `epsilon` is assigned before it is read. -/
def encipherSbox6 (alpha beta gamma delta : Word) : SerpentRegs :=
  let epsilon := beta
  let delta := delta ^^^ alpha
  let beta := beta ^^^ gamma
  let gamma := gamma ^^^ alpha
  let alpha := alpha &&& delta
  let beta := beta ||| delta
  let epsilon := ~~~epsilon
  let alpha := alpha ^^^ beta
  let beta := beta ^^^ gamma
  let delta := delta ^^^ epsilon
  let epsilon := epsilon ^^^ alpha
  let gamma := gamma &&& alpha
  let epsilon := epsilon ^^^ beta
  let gamma := gamma ^^^ delta
  let delta := delta &&& beta
  let delta := delta ^^^ alpha
  let beta := beta ^^^ gamma
  ⟨alpha, beta, gamma, delta, epsilon⟩

/-- serpent.c:467-474 `EncipherSbox7`.  `epsilon` is assigned before it is read. -/
def encipherSbox7 (alpha beta gamma delta : Word) : SerpentRegs :=
  let beta := ~~~beta
  let epsilon := beta
  let alpha := ~~~alpha
  let beta := beta &&& gamma
  let beta := beta ^^^ delta
  let delta := delta ||| epsilon
  let epsilon := epsilon ^^^ gamma
  let gamma := gamma ^^^ delta
  let delta := delta ^^^ alpha
  let alpha := alpha ||| beta
  let gamma := gamma &&& alpha
  let alpha := alpha ^^^ epsilon
  let epsilon := epsilon ^^^ delta
  let delta := delta &&& alpha
  let epsilon := epsilon ^^^ beta
  let gamma := gamma ^^^ epsilon
  let delta := delta ^^^ beta
  let epsilon := epsilon ||| alpha
  let epsilon := epsilon ^^^ beta
  ⟨alpha, beta, gamma, delta, epsilon⟩

/-- serpent.c:157-163 `DecipherSbox0`.  `epsilon` is assigned before it is read. -/
def decipherSbox0 (alpha beta gamma delta : Word) : SerpentRegs :=
  let beta := beta ^^^ alpha
  let epsilon := delta
  let delta := delta ||| beta
  let epsilon := epsilon ^^^ beta
  let alpha := ~~~alpha
  let gamma := gamma ^^^ delta
  let delta := delta ^^^ alpha
  let alpha := alpha &&& beta
  let alpha := alpha ^^^ gamma
  let gamma := gamma &&& delta
  let delta := delta ^^^ epsilon
  let gamma := gamma ^^^ delta
  let beta := beta ^^^ delta
  let delta := delta &&& alpha
  let beta := beta ^^^ alpha
  let alpha := alpha ^^^ gamma
  let epsilon := epsilon ^^^ delta
  ⟨alpha, beta, gamma, delta, epsilon⟩

/-- serpent.c:164-170 `DecipherSbox1`.  `epsilon` is assigned before it is read. -/
def decipherSbox1 (alpha beta gamma delta : Word) : SerpentRegs :=
  let beta := beta ^^^ delta
  let epsilon := alpha
  let alpha := alpha ^^^ gamma
  let gamma := ~~~gamma
  let epsilon := epsilon ||| beta
  let epsilon := epsilon ^^^ delta
  let delta := delta &&& beta
  let beta := beta ^^^ gamma
  let gamma := gamma &&& epsilon
  let epsilon := epsilon ^^^ beta
  let beta := beta ||| delta
  let delta := delta ^^^ alpha
  let gamma := gamma ^^^ alpha
  let alpha := alpha ||| epsilon
  let gamma := gamma ^^^ epsilon
  let beta := beta ^^^ alpha
  let epsilon := epsilon ^^^ beta
  ⟨alpha, beta, gamma, delta, epsilon⟩

/-- serpent.c:171-177 `DecipherSbox2`.  `epsilon` is assigned before it is read. -/
def decipherSbox2 (alpha beta gamma delta : Word) : SerpentRegs :=
  let gamma := gamma ^^^ beta
  let epsilon := delta
  let delta := ~~~delta
  let delta := delta ||| gamma
  let gamma := gamma ^^^ epsilon
  let epsilon := epsilon ^^^ alpha
  let delta := delta ^^^ beta
  let beta := beta ||| gamma
  let gamma := gamma ^^^ alpha
  let beta := beta ^^^ epsilon
  let epsilon := epsilon ||| delta
  let gamma := gamma ^^^ delta
  let epsilon := epsilon ^^^ gamma
  let gamma := gamma &&& beta
  let gamma := gamma ^^^ delta
  let delta := delta ^^^ epsilon
  let epsilon := epsilon ^^^ alpha
  ⟨alpha, beta, gamma, delta, epsilon⟩

/-- serpent.c:178-184 `DecipherSbox3`.  `epsilon` is assigned before it is read. -/
def decipherSbox3 (alpha beta gamma delta : Word) : SerpentRegs :=
  let gamma := gamma ^^^ beta
  let epsilon := beta
  let beta := beta &&& gamma
  let beta := beta ^^^ alpha
  let alpha := alpha ||| epsilon
  let epsilon := epsilon ^^^ delta
  let alpha := alpha ^^^ delta
  let delta := delta ||| beta
  let beta := beta ^^^ gamma
  let beta := beta ^^^ delta
  let alpha := alpha ^^^ gamma
  let gamma := gamma ^^^ delta
  let delta := delta &&& beta
  let beta := beta ^^^ alpha
  let alpha := alpha &&& gamma
  let epsilon := epsilon ^^^ delta
  let delta := delta ^^^ alpha
  let alpha := alpha ^^^ beta
  ⟨alpha, beta, gamma, delta, epsilon⟩

/-- serpent.c:185-192 `DecipherSbox4`.  `epsilon` is assigned before it is read. -/
def decipherSbox4 (alpha beta gamma delta : Word) : SerpentRegs :=
  let gamma := gamma ^^^ delta
  let epsilon := alpha
  let alpha := alpha &&& beta
  let alpha := alpha ^^^ gamma
  let gamma := gamma ||| delta
  let epsilon := ~~~epsilon
  let beta := beta ^^^ alpha
  let alpha := alpha ^^^ gamma
  let gamma := gamma &&& epsilon
  let gamma := gamma ^^^ alpha
  let alpha := alpha ||| epsilon
  let alpha := alpha ^^^ delta
  let delta := delta &&& gamma
  let epsilon := epsilon ^^^ delta
  let delta := delta ^^^ beta
  let beta := beta &&& alpha
  let epsilon := epsilon ^^^ beta
  let alpha := alpha ^^^ delta
  ⟨alpha, beta, gamma, delta, epsilon⟩

/-- serpent.c:193-200 `DecipherSbox5`.  `epsilon` is assigned before it is read. -/
def decipherSbox5 (alpha beta gamma delta : Word) : SerpentRegs :=
  let epsilon := beta
  let beta := beta ||| gamma
  let gamma := gamma ^^^ epsilon
  let beta := beta ^^^ delta
  let delta := delta &&& epsilon
  let gamma := gamma ^^^ delta
  let delta := delta ||| alpha
  let alpha := ~~~alpha
  let delta := delta ^^^ gamma
  let gamma := gamma ||| alpha
  let epsilon := epsilon ^^^ beta
  let gamma := gamma ^^^ epsilon
  let epsilon := epsilon &&& alpha
  let alpha := alpha ^^^ beta
  let beta := beta ^^^ delta
  let alpha := alpha &&& gamma
  let gamma := gamma ^^^ delta
  let alpha := alpha ^^^ gamma
  let gamma := gamma ^^^ epsilon
  let epsilon := epsilon ^^^ delta
  ⟨alpha, beta, gamma, delta, epsilon⟩

/-- serpent.c:201-207 `DecipherSbox6`.  `epsilon` is assigned before it is read. -/
def decipherSbox6 (alpha beta gamma delta : Word) : SerpentRegs :=
  let alpha := alpha ^^^ gamma
  let epsilon := alpha
  let alpha := alpha &&& delta
  let gamma := gamma ^^^ delta
  let alpha := alpha ^^^ gamma
  let delta := delta ^^^ beta
  let gamma := gamma ||| epsilon
  let gamma := gamma ^^^ delta
  let delta := delta &&& alpha
  let alpha := ~~~alpha
  let delta := delta ^^^ beta
  let beta := beta &&& gamma
  let epsilon := epsilon ^^^ alpha
  let delta := delta ^^^ epsilon
  let epsilon := epsilon ^^^ gamma
  let alpha := alpha ^^^ beta
  let gamma := gamma ^^^ alpha
  ⟨alpha, beta, gamma, delta, epsilon⟩

/-- serpent.c:208-215 `DecipherSbox7`.  `epsilon` is assigned before it is read. -/
def decipherSbox7 (alpha beta gamma delta : Word) : SerpentRegs :=
  let epsilon := delta
  let delta := delta &&& alpha
  let alpha := alpha ^^^ gamma
  let gamma := gamma ||| epsilon
  let epsilon := epsilon ^^^ beta
  let alpha := ~~~alpha
  let beta := beta ||| delta
  let epsilon := epsilon ^^^ alpha
  let alpha := alpha &&& gamma
  let alpha := alpha ^^^ beta
  let beta := beta &&& gamma
  let delta := delta ^^^ gamma
  let epsilon := epsilon ^^^ delta
  let gamma := gamma &&& delta
  let delta := delta ||| alpha
  let beta := beta ^^^ epsilon
  let delta := delta ^^^ epsilon
  let epsilon := epsilon &&& alpha
  let epsilon := epsilon ^^^ gamma
  ⟨alpha, beta, gamma, delta, epsilon⟩

/-- serpent.c:406-415 `EncipherK`; `k0`..`k3` are `crypt_key[4*(i)+0..3]`. -/
def encipherK (k0 k1 k2 k3 alpha beta gamma delta : Word) : SerpentRegs :=
  let alpha := serpentRotateLeft alpha 13
  let gamma := serpentRotateLeft gamma 3
  let beta := beta ^^^ alpha
  let epsilon := alpha <<< 3
  let delta := delta ^^^ gamma
  let beta := beta ^^^ gamma
  let beta := serpentRotateLeft beta 1
  let delta := delta ^^^ epsilon
  let delta := serpentRotateLeft delta 7
  let epsilon := beta <<< 7
  let alpha := alpha ^^^ beta
  let gamma := gamma ^^^ delta
  let alpha := alpha ^^^ delta
  let gamma := gamma ^^^ epsilon
  let delta := delta ^^^ k3
  let beta := beta ^^^ k1
  let alpha := serpentRotateLeft alpha 5
  let gamma := serpentRotateLeft gamma 22
  let alpha := alpha ^^^ k0
  let gamma := gamma ^^^ k2
  ⟨alpha, beta, gamma, delta, epsilon⟩

/-- serpent.c:216-225 `DecipherK`; `k0`..`k3` are `crypt_key[4*(i)+0..3]`, mixed in first by
`MixKey`. -/
def decipherK (k0 k1 k2 k3 alpha beta gamma delta : Word) : SerpentRegs :=
  let alpha := alpha ^^^ k0
  let beta := beta ^^^ k1
  let gamma := gamma ^^^ k2
  let delta := delta ^^^ k3
  let alpha := serpentRotateRight alpha 5
  let gamma := serpentRotateRight gamma 22
  let alpha := alpha ^^^ delta
  let gamma := gamma ^^^ delta
  let epsilon := beta <<< 7
  let alpha := alpha ^^^ beta
  let beta := serpentRotateRight beta 1
  let gamma := gamma ^^^ epsilon
  let delta := serpentRotateRight delta 7
  let epsilon := alpha <<< 3
  let beta := beta ^^^ alpha
  let delta := delta ^^^ epsilon
  let alpha := serpentRotateRight alpha 13
  let beta := beta ^^^ gamma
  let delta := delta ^^^ gamma
  let gamma := serpentRotateRight gamma 3
  ⟨alpha, beta, gamma, delta, epsilon⟩

/-- The names of the local variables. -/
inductive SerpentReg where
  | alpha | beta | gamma | delta | epsilon
  deriving DecidableEq, Repr

/-- Read a local variable. -/
def SerpentRegs.get (s : SerpentRegs) : SerpentReg → Word
  | .alpha => s.alpha
  | .beta => s.beta
  | .gamma => s.gamma
  | .delta => s.delta
  | .epsilon => s.epsilon

/-- Assign a local variable. -/
def SerpentRegs.set (s : SerpentRegs) (r : SerpentReg) (v : Word) : SerpentRegs :=
  match r with
  | .alpha => { s with alpha := v }
  | .beta => { s with beta := v }
  | .gamma => { s with gamma := v }
  | .delta => { s with delta := v }
  | .epsilon => { s with epsilon := v }

/-- The five registers a macro is expanded on, in the order of its parameters. -/
structure SerpentArgs where
  a : SerpentReg
  b : SerpentReg
  c : SerpentReg
  d : SerpentReg
  e : SerpentReg
  deriving DecidableEq, Repr

/-- Expansion of a five-parameter macro on the registers `p`. -/
def SerpentRegs.expand (s : SerpentRegs) (f : Word → Word → Word → Word → SerpentRegs)
    (p : SerpentArgs) : SerpentRegs :=
  let r := f (s.get p.a) (s.get p.b) (s.get p.c) (s.get p.d)
  ((((s.set p.a r.alpha).set p.b r.beta).set p.c r.gamma).set p.d r.delta).set p.e r.epsilon

/-- One source line of the three functions. -/
inductive SerpentOp where
  /-- `MixKey(a,b,c,d,i)` -/
  | mixKey (a b c d : SerpentReg) (i : Nat)
  /-- `EncipherSboxN(...)` -/
  | encipherSbox (n : Nat) (p : SerpentArgs)
  /-- `DecipherSboxN(...)` -/
  | decipherSbox (n : Nat) (p : SerpentArgs)
  /-- `EncipherK(...,i)` -/
  | encipherK (p : SerpentArgs) (i : Nat)
  /-- `DecipherK(...,i)` -/
  | decipherK (p : SerpentArgs) (i : Nat)
  /-- `Read32Bits(rho,p); ChurnKey(rho,b,c,d,i,j)` -/
  | churnRead (b c d : SerpentReg) (i : Nat) (j : Int)
  /-- `ChurnKey(crypt_key[k],b,c,d,i,j)` -/
  | churn (k : Int) (b c d : SerpentReg) (i : Nat) (j : Int)
  /-- `LoadKey(a,b,c,d,i)` -/
  | load (a b c d : SerpentReg) (i : Int)
  /-- `StoreKey(a,b,c,d,i)` -/
  | store (a b c d : SerpentReg) (i : Int)
  /-- `crypt_key+=n` or `crypt_key-=n` -/
  | advance (n : Int)
  deriving DecidableEq, Repr

/-- The state of one of the three functions: the array `serpent_info->crypt_key`, the pointer
`crypt_key` into it (an index), the byte pointer `p` (in units of four bytes) and the local
variables. -/
structure SerpentState where
  mem : List Word
  base : Int
  p : Nat
  regs : SerpentRegs
  deriving DecidableEq, Repr

/-- `crypt_key[i]` as a value: out of the array is undefined behaviour. -/
def SerpentState.read (s : SerpentState) (i : Int) : Res Word :=
  if 0 ≤ s.base + i ∧ s.base + i < s.mem.length then .ok (s.mem.getD (s.base + i).toNat 0) else .ub

/-- `crypt_key[i]=v`. -/
def SerpentState.write (s : SerpentState) (i : Int) (v : Word) : Res SerpentState :=
  if 0 ≤ s.base + i ∧ s.base + i < s.mem.length then
    .ok { s with mem := s.mem.set (s.base + i).toNat v } else .ub

/-- serpent.c:416-474 the macro `EncipherSbox`n. -/
def encipherSbox : Nat → Word → Word → Word → Word → SerpentRegs
  | 0 => encipherSbox0
  | 1 => encipherSbox1
  | 2 => encipherSbox2
  | 3 => encipherSbox3
  | 4 => encipherSbox4
  | 5 => encipherSbox5
  | 6 => encipherSbox6
  | _ => encipherSbox7

/-- serpent.c:157-215 the macro `DecipherSbox`n. -/
def decipherSbox : Nat → Word → Word → Word → Word → SerpentRegs
  | 0 => decipherSbox0
  | 1 => decipherSbox1
  | 2 => decipherSbox2
  | 3 => decipherSbox3
  | 4 => decipherSbox4
  | 5 => decipherSbox5
  | 6 => decipherSbox6
  | _ => decipherSbox7

/-- serpent.c:639-643 the new value of `beta` in `ChurnKey(alpha,beta,gamma,delta,i,j)`. -/
def serpentChurn (alpha beta gamma delta : Word) (i : Nat) : Word :=
  let beta := beta ^^^ delta
  let beta := beta ^^^ gamma
  let beta := beta ^^^ alpha
  let beta := beta ^^^ (0x9e3779b9 ^^^ BitVec.ofNat 32 i)
  serpentRotateLeft beta 11

/-- Execution of one source line: the macros at serpent.c:157-230, 406-474 and 639-654, and the
pointer adjustments in `SetSerpentKey`. -/
def SerpentOp.step (s : SerpentState) : SerpentOp → Res SerpentState
  | .mixKey a b c d i => do
      let k0 ← s.read (4 * i + 0)
      let k1 ← s.read (4 * i + 1)
      let k2 ← s.read (4 * i + 2)
      let k3 ← s.read (4 * i + 3)
      let r := s.regs.set a (s.regs.get a ^^^ k0)
      let r := r.set b (r.get b ^^^ k1)
      let r := r.set c (r.get c ^^^ k2)
      let r := r.set d (r.get d ^^^ k3)
      .ok { s with regs := r }
  | .encipherSbox n p => .ok { s with regs := s.regs.expand (Wizard.encipherSbox n) p }
  | .decipherSbox n p => .ok { s with regs := s.regs.expand (Wizard.decipherSbox n) p }
  | .encipherK p i => do
      let k0 ← s.read (4 * i + 0)
      let k1 ← s.read (4 * i + 1)
      let k2 ← s.read (4 * i + 2)
      let k3 ← s.read (4 * i + 3)
      .ok { s with regs := s.regs.expand (Wizard.encipherK k0 k1 k2 k3) p }
  | .decipherK p i => do
      let k0 ← s.read (4 * i + 0)
      let k1 ← s.read (4 * i + 1)
      let k2 ← s.read (4 * i + 2)
      let k3 ← s.read (4 * i + 3)
      .ok { s with regs := s.regs.expand (Wizard.decipherK k0 k1 k2 k3) p }
  | .churnRead b c d i j => do
      let rho := s.mem.getD s.p 0
      let v := serpentChurn rho (s.regs.get b) (s.regs.get c) (s.regs.get d) i
      let s ← s.write j v
      .ok { s with p := s.p + 1, regs := s.regs.set b v }
  | .churn k b c d i j => do
      let alpha ← s.read k
      let v := serpentChurn alpha (s.regs.get b) (s.regs.get c) (s.regs.get d) i
      let s ← s.write j v
      .ok { s with regs := s.regs.set b v }
  | .load a b c d i => do
      let v0 ← s.read i
      let v1 ← s.read (i + 1)
      let v2 ← s.read (i + 2)
      let v3 ← s.read (i + 3)
      .ok { s with regs := (((s.regs.set a v0).set b v1).set c v2).set d v3 }
  | .store a b c d i => do
      let s ← s.write i (s.regs.get a)
      let s ← s.write (i + 1) (s.regs.get b)
      let s ← s.write (i + 2) (s.regs.get c)
      s.write (i + 3) (s.regs.get d)
  | .advance n => .ok { s with base := s.base + n }

/-- Execution of a sequence of source lines. -/
def serpentRun : List SerpentOp → SerpentState → Res SerpentState
  | [], s => .ok s
  | o :: os, s => SerpentOp.step s o >>= serpentRun os

/-- serpent.c:501-565 the rounds of `EncipherSerpentBlock`. -/
def encipherSerpentOps : List SerpentOp := [
  .mixKey .alpha .beta .gamma .delta 0,
  .encipherSbox 0 ⟨.alpha, .beta, .gamma, .delta, .epsilon⟩,
  .encipherK ⟨.gamma, .beta, .delta, .alpha, .epsilon⟩ 1,
  .encipherSbox 1 ⟨.gamma, .beta, .delta, .alpha, .epsilon⟩,
  .encipherK ⟨.epsilon, .delta, .alpha, .gamma, .beta⟩ 2,
  .encipherSbox 2 ⟨.epsilon, .delta, .alpha, .gamma, .beta⟩,
  .encipherK ⟨.beta, .delta, .epsilon, .gamma, .alpha⟩ 3,
  .encipherSbox 3 ⟨.beta, .delta, .epsilon, .gamma, .alpha⟩,
  .encipherK ⟨.gamma, .alpha, .delta, .beta, .epsilon⟩ 4,
  .encipherSbox 4 ⟨.gamma, .alpha, .delta, .beta, .epsilon⟩,
  .encipherK ⟨.alpha, .delta, .beta, .epsilon, .gamma⟩ 5,
  .encipherSbox 5 ⟨.alpha, .delta, .beta, .epsilon, .gamma⟩,
  .encipherK ⟨.gamma, .alpha, .delta, .epsilon, .beta⟩ 6,
  .encipherSbox 6 ⟨.gamma, .alpha, .delta, .epsilon, .beta⟩,
  .encipherK ⟨.delta, .beta, .alpha, .epsilon, .gamma⟩ 7,
  .encipherSbox 7 ⟨.delta, .beta, .alpha, .epsilon, .gamma⟩,
  .encipherK ⟨.gamma, .alpha, .epsilon, .delta, .beta⟩ 8,
  .encipherSbox 0 ⟨.gamma, .alpha, .epsilon, .delta, .beta⟩,
  .encipherK ⟨.epsilon, .alpha, .delta, .gamma, .beta⟩ 9,
  .encipherSbox 1 ⟨.epsilon, .alpha, .delta, .gamma, .beta⟩,
  .encipherK ⟨.beta, .delta, .gamma, .epsilon, .alpha⟩ 10,
  .encipherSbox 2 ⟨.beta, .delta, .gamma, .epsilon, .alpha⟩,
  .encipherK ⟨.alpha, .delta, .beta, .epsilon, .gamma⟩ 11,
  .encipherSbox 3 ⟨.alpha, .delta, .beta, .epsilon, .gamma⟩,
  .encipherK ⟨.epsilon, .gamma, .delta, .alpha, .beta⟩ 12,
  .encipherSbox 4 ⟨.epsilon, .gamma, .delta, .alpha, .beta⟩,
  .encipherK ⟨.gamma, .delta, .alpha, .beta, .epsilon⟩ 13,
  .encipherSbox 5 ⟨.gamma, .delta, .alpha, .beta, .epsilon⟩,
  .encipherK ⟨.epsilon, .gamma, .delta, .beta, .alpha⟩ 14,
  .encipherSbox 6 ⟨.epsilon, .gamma, .delta, .beta, .alpha⟩,
  .encipherK ⟨.delta, .alpha, .gamma, .beta, .epsilon⟩ 15,
  .encipherSbox 7 ⟨.delta, .alpha, .gamma, .beta, .epsilon⟩,
  .encipherK ⟨.epsilon, .gamma, .beta, .delta, .alpha⟩ 16,
  .encipherSbox 0 ⟨.epsilon, .gamma, .beta, .delta, .alpha⟩,
  .encipherK ⟨.beta, .gamma, .delta, .epsilon, .alpha⟩ 17,
  .encipherSbox 1 ⟨.beta, .gamma, .delta, .epsilon, .alpha⟩,
  .encipherK ⟨.alpha, .delta, .epsilon, .beta, .gamma⟩ 18,
  .encipherSbox 2 ⟨.alpha, .delta, .epsilon, .beta, .gamma⟩,
  .encipherK ⟨.gamma, .delta, .alpha, .beta, .epsilon⟩ 19,
  .encipherSbox 3 ⟨.gamma, .delta, .alpha, .beta, .epsilon⟩,
  .encipherK ⟨.beta, .epsilon, .delta, .gamma, .alpha⟩ 20,
  .encipherSbox 4 ⟨.beta, .epsilon, .delta, .gamma, .alpha⟩,
  .encipherK ⟨.epsilon, .delta, .gamma, .alpha, .beta⟩ 21,
  .encipherSbox 5 ⟨.epsilon, .delta, .gamma, .alpha, .beta⟩,
  .encipherK ⟨.beta, .epsilon, .delta, .alpha, .gamma⟩ 22,
  .encipherSbox 6 ⟨.beta, .epsilon, .delta, .alpha, .gamma⟩,
  .encipherK ⟨.delta, .gamma, .epsilon, .alpha, .beta⟩ 23,
  .encipherSbox 7 ⟨.delta, .gamma, .epsilon, .alpha, .beta⟩,
  .encipherK ⟨.beta, .epsilon, .alpha, .delta, .gamma⟩ 24,
  .encipherSbox 0 ⟨.beta, .epsilon, .alpha, .delta, .gamma⟩,
  .encipherK ⟨.alpha, .epsilon, .delta, .beta, .gamma⟩ 25,
  .encipherSbox 1 ⟨.alpha, .epsilon, .delta, .beta, .gamma⟩,
  .encipherK ⟨.gamma, .delta, .beta, .alpha, .epsilon⟩ 26,
  .encipherSbox 2 ⟨.gamma, .delta, .beta, .alpha, .epsilon⟩,
  .encipherK ⟨.epsilon, .delta, .gamma, .alpha, .beta⟩ 27,
  .encipherSbox 3 ⟨.epsilon, .delta, .gamma, .alpha, .beta⟩,
  .encipherK ⟨.alpha, .beta, .delta, .epsilon, .gamma⟩ 28,
  .encipherSbox 4 ⟨.alpha, .beta, .delta, .epsilon, .gamma⟩,
  .encipherK ⟨.beta, .delta, .epsilon, .gamma, .alpha⟩ 29,
  .encipherSbox 5 ⟨.beta, .delta, .epsilon, .gamma, .alpha⟩,
  .encipherK ⟨.alpha, .beta, .delta, .gamma, .epsilon⟩ 30,
  .encipherSbox 6 ⟨.alpha, .beta, .delta, .gamma, .epsilon⟩,
  .encipherK ⟨.delta, .epsilon, .beta, .gamma, .alpha⟩ 31,
  .encipherSbox 7 ⟨.delta, .epsilon, .beta, .gamma, .alpha⟩,
  .mixKey .alpha .beta .gamma .delta 32]

/-- serpent.c:257-321 the rounds of `DecipherSerpentBlock`. -/
def decipherSerpentOps : List SerpentOp := [
  .mixKey .alpha .beta .gamma .delta 32,
  .decipherSbox 7 ⟨.alpha, .beta, .gamma, .delta, .epsilon⟩,
  .decipherK ⟨.beta, .delta, .alpha, .epsilon, .gamma⟩ 31,
  .decipherSbox 6 ⟨.beta, .delta, .alpha, .epsilon, .gamma⟩,
  .decipherK ⟨.alpha, .gamma, .epsilon, .beta, .delta⟩ 30,
  .decipherSbox 5 ⟨.alpha, .gamma, .epsilon, .beta, .delta⟩,
  .decipherK ⟨.gamma, .delta, .alpha, .epsilon, .beta⟩ 29,
  .decipherSbox 4 ⟨.gamma, .delta, .alpha, .epsilon, .beta⟩,
  .decipherK ⟨.gamma, .alpha, .beta, .epsilon, .delta⟩ 28,
  .decipherSbox 3 ⟨.gamma, .alpha, .beta, .epsilon, .delta⟩,
  .decipherK ⟨.beta, .gamma, .delta, .epsilon, .alpha⟩ 27,
  .decipherSbox 2 ⟨.beta, .gamma, .delta, .epsilon, .alpha⟩,
  .decipherK ⟨.gamma, .alpha, .epsilon, .delta, .beta⟩ 26,
  .decipherSbox 1 ⟨.gamma, .alpha, .epsilon, .delta, .beta⟩,
  .decipherK ⟨.beta, .alpha, .epsilon, .delta, .gamma⟩ 25,
  .decipherSbox 0 ⟨.beta, .alpha, .epsilon, .delta, .gamma⟩,
  .decipherK ⟨.epsilon, .gamma, .alpha, .beta, .delta⟩ 24,
  .decipherSbox 7 ⟨.epsilon, .gamma, .alpha, .beta, .delta⟩,
  .decipherK ⟨.gamma, .beta, .epsilon, .delta, .alpha⟩ 23,
  .decipherSbox 6 ⟨.gamma, .beta, .epsilon, .delta, .alpha⟩,
  .decipherK ⟨.epsilon, .alpha, .delta, .gamma, .beta⟩ 22,
  .decipherSbox 5 ⟨.epsilon, .alpha, .delta, .gamma, .beta⟩,
  .decipherK ⟨.alpha, .beta, .epsilon, .delta, .gamma⟩ 21,
  .decipherSbox 4 ⟨.alpha, .beta, .epsilon, .delta, .gamma⟩,
  .decipherK ⟨.alpha, .epsilon, .gamma, .delta, .beta⟩ 20,
  .decipherSbox 3 ⟨.alpha, .epsilon, .gamma, .delta, .beta⟩,
  .decipherK ⟨.gamma, .alpha, .beta, .delta, .epsilon⟩ 19,
  .decipherSbox 2 ⟨.gamma, .alpha, .beta, .delta, .epsilon⟩,
  .decipherK ⟨.alpha, .epsilon, .delta, .beta, .gamma⟩ 18,
  .decipherSbox 1 ⟨.alpha, .epsilon, .delta, .beta, .gamma⟩,
  .decipherK ⟨.gamma, .epsilon, .delta, .beta, .alpha⟩ 17,
  .decipherSbox 0 ⟨.gamma, .epsilon, .delta, .beta, .alpha⟩,
  .decipherK ⟨.delta, .alpha, .epsilon, .gamma, .beta⟩ 16,
  .decipherSbox 7 ⟨.delta, .alpha, .epsilon, .gamma, .beta⟩,
  .decipherK ⟨.alpha, .gamma, .delta, .beta, .epsilon⟩ 15,
  .decipherSbox 6 ⟨.alpha, .gamma, .delta, .beta, .epsilon⟩,
  .decipherK ⟨.delta, .epsilon, .beta, .alpha, .gamma⟩ 14,
  .decipherSbox 5 ⟨.delta, .epsilon, .beta, .alpha, .gamma⟩,
  .decipherK ⟨.epsilon, .gamma, .delta, .beta, .alpha⟩ 13,
  .decipherSbox 4 ⟨.epsilon, .gamma, .delta, .beta, .alpha⟩,
  .decipherK ⟨.epsilon, .delta, .alpha, .beta, .gamma⟩ 12,
  .decipherSbox 3 ⟨.epsilon, .delta, .alpha, .beta, .gamma⟩,
  .decipherK ⟨.alpha, .epsilon, .gamma, .beta, .delta⟩ 11,
  .decipherSbox 2 ⟨.alpha, .epsilon, .gamma, .beta, .delta⟩,
  .decipherK ⟨.epsilon, .delta, .beta, .gamma, .alpha⟩ 10,
  .decipherSbox 1 ⟨.epsilon, .delta, .beta, .gamma, .alpha⟩,
  .decipherK ⟨.alpha, .delta, .beta, .gamma, .epsilon⟩ 9,
  .decipherSbox 0 ⟨.alpha, .delta, .beta, .gamma, .epsilon⟩,
  .decipherK ⟨.beta, .epsilon, .delta, .alpha, .gamma⟩ 8,
  .decipherSbox 7 ⟨.beta, .epsilon, .delta, .alpha, .gamma⟩,
  .decipherK ⟨.epsilon, .alpha, .beta, .gamma, .delta⟩ 7,
  .decipherSbox 6 ⟨.epsilon, .alpha, .beta, .gamma, .delta⟩,
  .decipherK ⟨.beta, .delta, .gamma, .epsilon, .alpha⟩ 6,
  .decipherSbox 5 ⟨.beta, .delta, .gamma, .epsilon, .alpha⟩,
  .decipherK ⟨.delta, .alpha, .beta, .gamma, .epsilon⟩ 5,
  .decipherSbox 4 ⟨.delta, .alpha, .beta, .gamma, .epsilon⟩,
  .decipherK ⟨.delta, .beta, .epsilon, .gamma, .alpha⟩ 4,
  .decipherSbox 3 ⟨.delta, .beta, .epsilon, .gamma, .alpha⟩,
  .decipherK ⟨.epsilon, .delta, .alpha, .gamma, .beta⟩ 3,
  .decipherSbox 2 ⟨.epsilon, .delta, .alpha, .gamma, .beta⟩,
  .decipherK ⟨.delta, .beta, .gamma, .alpha, .epsilon⟩ 2,
  .decipherSbox 1 ⟨.delta, .beta, .gamma, .alpha, .epsilon⟩,
  .decipherK ⟨.epsilon, .beta, .gamma, .alpha, .delta⟩ 1,
  .decipherSbox 0 ⟨.epsilon, .beta, .gamma, .alpha, .delta⟩,
  .mixKey .gamma .delta .beta .epsilon 0]

/-- serpent.c:700-841 the prekey lines of `SetSerpentKey`. -/
def serpentChurnOps : List SerpentOp := [
  .churnRead .alpha .epsilon .gamma 0 0,
  .churnRead .beta .alpha .delta 1 1,
  .churnRead .gamma .beta .epsilon 2 2,
  .churnRead .delta .gamma .alpha 3 3,
  .churnRead .epsilon .delta .beta 4 4,
  .churnRead .alpha .epsilon .gamma 5 5,
  .churnRead .beta .alpha .delta 6 6,
  .churnRead .gamma .beta .epsilon 7 7,
  .churn 0 .delta .gamma .alpha 8 8,
  .churn 1 .epsilon .delta .beta 9 9,
  .churn 2 .alpha .epsilon .gamma 10 10,
  .churn 3 .beta .alpha .delta 11 11,
  .churn 4 .gamma .beta .epsilon 12 12,
  .churn 5 .delta .gamma .alpha 13 13,
  .churn 6 .epsilon .delta .beta 14 14,
  .churn 7 .alpha .epsilon .gamma 15 15,
  .churn 8 .beta .alpha .delta 16 16,
  .churn 9 .gamma .beta .epsilon 17 17,
  .churn 10 .delta .gamma .alpha 18 18,
  .churn 11 .epsilon .delta .beta 19 19,
  .churn 12 .alpha .epsilon .gamma 20 20,
  .churn 13 .beta .alpha .delta 21 21,
  .churn 14 .gamma .beta .epsilon 22 22,
  .churn 15 .delta .gamma .alpha 23 23,
  .churn 16 .epsilon .delta .beta 24 24,
  .churn 17 .alpha .epsilon .gamma 25 25,
  .churn 18 .beta .alpha .delta 26 26,
  .churn 19 .gamma .beta .epsilon 27 27,
  .churn 20 .delta .gamma .alpha 28 28,
  .churn 21 .epsilon .delta .beta 29 29,
  .churn 22 .alpha .epsilon .gamma 30 30,
  .churn 23 .beta .alpha .delta 31 31,
  .advance 50,
  .churn (-26) .gamma .beta .epsilon 32 (-18),
  .churn (-25) .delta .gamma .alpha 33 (-17),
  .churn (-24) .epsilon .delta .beta 34 (-16),
  .churn (-23) .alpha .epsilon .gamma 35 (-15),
  .churn (-22) .beta .alpha .delta 36 (-14),
  .churn (-21) .gamma .beta .epsilon 37 (-13),
  .churn (-20) .delta .gamma .alpha 38 (-12),
  .churn (-19) .epsilon .delta .beta 39 (-11),
  .churn (-18) .alpha .epsilon .gamma 40 (-10),
  .churn (-17) .beta .alpha .delta 41 (-9),
  .churn (-16) .gamma .beta .epsilon 42 (-8),
  .churn (-15) .delta .gamma .alpha 43 (-7),
  .churn (-14) .epsilon .delta .beta 44 (-6),
  .churn (-13) .alpha .epsilon .gamma 45 (-5),
  .churn (-12) .beta .alpha .delta 46 (-4),
  .churn (-11) .gamma .beta .epsilon 47 (-3),
  .churn (-10) .delta .gamma .alpha 48 (-2),
  .churn (-9) .epsilon .delta .beta 49 (-1),
  .churn (-8) .alpha .epsilon .gamma 50 0,
  .churn (-7) .beta .alpha .delta 51 1,
  .churn (-6) .gamma .beta .epsilon 52 2,
  .churn (-5) .delta .gamma .alpha 53 3,
  .churn (-4) .epsilon .delta .beta 54 4,
  .churn (-3) .alpha .epsilon .gamma 55 5,
  .churn (-2) .beta .alpha .delta 56 6,
  .churn (-1) .gamma .beta .epsilon 57 7,
  .churn 0 .delta .gamma .alpha 58 8,
  .churn 1 .epsilon .delta .beta 59 9,
  .churn 2 .alpha .epsilon .gamma 60 10,
  .churn 3 .beta .alpha .delta 61 11,
  .churn 4 .gamma .beta .epsilon 62 12,
  .churn 5 .delta .gamma .alpha 63 13,
  .churn 6 .epsilon .delta .beta 64 14,
  .churn 7 .alpha .epsilon .gamma 65 15,
  .churn 8 .beta .alpha .delta 66 16,
  .churn 9 .gamma .beta .epsilon 67 17,
  .churn 10 .delta .gamma .alpha 68 18,
  .churn 11 .epsilon .delta .beta 69 19,
  .churn 12 .alpha .epsilon .gamma 70 20,
  .churn 13 .beta .alpha .delta 71 21,
  .churn 14 .gamma .beta .epsilon 72 22,
  .churn 15 .delta .gamma .alpha 73 23,
  .churn 16 .epsilon .delta .beta 74 24,
  .churn 17 .alpha .epsilon .gamma 75 25,
  .churn 18 .beta .alpha .delta 76 26,
  .churn 19 .gamma .beta .epsilon 77 27,
  .churn 20 .delta .gamma .alpha 78 28,
  .churn 21 .epsilon .delta .beta 79 29,
  .churn 22 .alpha .epsilon .gamma 80 30,
  .churn 23 .beta .alpha .delta 81 31,
  .advance 50,
  .churn (-26) .gamma .beta .epsilon 82 (-18),
  .churn (-25) .delta .gamma .alpha 83 (-17),
  .churn (-24) .epsilon .delta .beta 84 (-16),
  .churn (-23) .alpha .epsilon .gamma 85 (-15),
  .churn (-22) .beta .alpha .delta 86 (-14),
  .churn (-21) .gamma .beta .epsilon 87 (-13),
  .churn (-20) .delta .gamma .alpha 88 (-12),
  .churn (-19) .epsilon .delta .beta 89 (-11),
  .churn (-18) .alpha .epsilon .gamma 90 (-10),
  .churn (-17) .beta .alpha .delta 91 (-9),
  .churn (-16) .gamma .beta .epsilon 92 (-8),
  .churn (-15) .delta .gamma .alpha 93 (-7),
  .churn (-14) .epsilon .delta .beta 94 (-6),
  .churn (-13) .alpha .epsilon .gamma 95 (-5),
  .churn (-12) .beta .alpha .delta 96 (-4),
  .churn (-11) .gamma .beta .epsilon 97 (-3),
  .churn (-10) .delta .gamma .alpha 98 (-2),
  .churn (-9) .epsilon .delta .beta 99 (-1),
  .churn (-8) .alpha .epsilon .gamma 100 0,
  .churn (-7) .beta .alpha .delta 101 1,
  .churn (-6) .gamma .beta .epsilon 102 2,
  .churn (-5) .delta .gamma .alpha 103 3,
  .churn (-4) .epsilon .delta .beta 104 4,
  .churn (-3) .alpha .epsilon .gamma 105 5,
  .churn (-2) .beta .alpha .delta 106 6,
  .churn (-1) .gamma .beta .epsilon 107 7,
  .churn 0 .delta .gamma .alpha 108 8,
  .churn 1 .epsilon .delta .beta 109 9,
  .churn 2 .alpha .epsilon .gamma 110 10,
  .churn 3 .beta .alpha .delta 111 11,
  .churn 4 .gamma .beta .epsilon 112 12,
  .churn 5 .delta .gamma .alpha 113 13,
  .churn 6 .epsilon .delta .beta 114 14,
  .churn 7 .alpha .epsilon .gamma 115 15,
  .churn 8 .beta .alpha .delta 116 16,
  .churn 9 .gamma .beta .epsilon 117 17,
  .churn 10 .delta .gamma .alpha 118 18,
  .churn 11 .epsilon .delta .beta 119 19,
  .churn 12 .alpha .epsilon .gamma 120 20,
  .churn 13 .beta .alpha .delta 121 21,
  .churn 14 .gamma .beta .epsilon 122 22,
  .churn 15 .delta .gamma .alpha 123 23,
  .churn 16 .epsilon .delta .beta 124 24,
  .churn 17 .alpha .epsilon .gamma 125 25,
  .churn 18 .beta .alpha .delta 126 26,
  .churn 19 .gamma .beta .epsilon 127 27,
  .churn 20 .delta .gamma .alpha 128 28,
  .churn 21 .epsilon .delta .beta 129 29,
  .churn 22 .alpha .epsilon .gamma 130 30,
  .churn 23 .beta .alpha .delta 131 31]

/-- serpent.c:845-944 the S-box lines of `SetSerpentKey`. -/
def serpentSboxOps : List SerpentOp := [
  .encipherSbox 3 ⟨.delta, .epsilon, .alpha, .beta, .gamma⟩,
  .store .beta .gamma .epsilon .delta 28,
  .load .beta .gamma .epsilon .delta 24,
  .encipherSbox 4 ⟨.beta, .gamma, .epsilon, .delta, .alpha⟩,
  .store .gamma .epsilon .delta .alpha 24,
  .load .gamma .epsilon .delta .alpha 20,
  .encipherSbox 5 ⟨.gamma, .epsilon, .delta, .alpha, .beta⟩,
  .store .beta .gamma .epsilon .alpha 20,
  .load .beta .gamma .epsilon .alpha 16,
  .encipherSbox 6 ⟨.beta, .gamma, .epsilon, .alpha, .delta⟩,
  .store .epsilon .delta .gamma .alpha 16,
  .load .epsilon .delta .gamma .alpha 12,
  .encipherSbox 7 ⟨.epsilon, .delta, .gamma, .alpha, .beta⟩,
  .store .beta .gamma .alpha .epsilon 12,
  .load .beta .gamma .alpha .epsilon 8,
  .encipherSbox 0 ⟨.beta, .gamma, .alpha, .epsilon, .delta⟩,
  .store .alpha .gamma .epsilon .beta 8,
  .load .alpha .gamma .epsilon .beta 4,
  .encipherSbox 1 ⟨.alpha, .gamma, .epsilon, .beta, .delta⟩,
  .store .delta .epsilon .beta .alpha 4,
  .load .delta .epsilon .beta .alpha 0,
  .encipherSbox 2 ⟨.delta, .epsilon, .beta, .alpha, .gamma⟩,
  .store .gamma .epsilon .delta .alpha 0,
  .load .gamma .epsilon .delta .alpha (-4),
  .encipherSbox 3 ⟨.gamma, .epsilon, .delta, .alpha, .beta⟩,
  .store .alpha .beta .epsilon .gamma (-4),
  .load .alpha .beta .epsilon .gamma (-8),
  .encipherSbox 4 ⟨.alpha, .beta, .epsilon, .gamma, .delta⟩,
  .store .beta .epsilon .gamma .delta (-8),
  .load .beta .epsilon .gamma .delta (-12),
  .encipherSbox 5 ⟨.beta, .epsilon, .gamma, .delta, .alpha⟩,
  .store .alpha .beta .epsilon .delta (-12),
  .load .alpha .beta .epsilon .delta (-16),
  .encipherSbox 6 ⟨.alpha, .beta, .epsilon, .delta, .gamma⟩,
  .store .epsilon .gamma .beta .delta (-16),
  .load .epsilon .gamma .beta .delta (-20),
  .encipherSbox 7 ⟨.epsilon, .gamma, .beta, .delta, .alpha⟩,
  .store .alpha .beta .delta .epsilon (-20),
  .load .alpha .beta .delta .epsilon (-24),
  .encipherSbox 0 ⟨.alpha, .beta, .delta, .epsilon, .gamma⟩,
  .store .delta .beta .epsilon .alpha (-24),
  .load .delta .beta .epsilon .alpha (-28),
  .advance (-50),
  .encipherSbox 1 ⟨.delta, .beta, .epsilon, .alpha, .gamma⟩,
  .store .gamma .epsilon .alpha .delta 22,
  .load .gamma .epsilon .alpha .delta 18,
  .encipherSbox 2 ⟨.gamma, .epsilon, .alpha, .delta, .beta⟩,
  .store .beta .epsilon .gamma .delta 18,
  .load .beta .epsilon .gamma .delta 14,
  .encipherSbox 3 ⟨.beta, .epsilon, .gamma, .delta, .alpha⟩,
  .store .delta .alpha .epsilon .beta 14,
  .load .delta .alpha .epsilon .beta 10,
  .encipherSbox 4 ⟨.delta, .alpha, .epsilon, .beta, .gamma⟩,
  .store .alpha .epsilon .beta .gamma 10,
  .load .alpha .epsilon .beta .gamma 6,
  .encipherSbox 5 ⟨.alpha, .epsilon, .beta, .gamma, .delta⟩,
  .store .delta .alpha .epsilon .gamma 6,
  .load .delta .alpha .epsilon .gamma 2,
  .encipherSbox 6 ⟨.delta, .alpha, .epsilon, .gamma, .beta⟩,
  .store .epsilon .beta .alpha .gamma 2,
  .load .epsilon .beta .alpha .gamma (-2),
  .encipherSbox 7 ⟨.epsilon, .beta, .alpha, .gamma, .delta⟩,
  .store .delta .alpha .gamma .epsilon (-2),
  .load .delta .alpha .gamma .epsilon (-6),
  .encipherSbox 0 ⟨.delta, .alpha, .gamma, .epsilon, .beta⟩,
  .store .gamma .alpha .epsilon .delta (-6),
  .load .gamma .alpha .epsilon .delta (-10),
  .encipherSbox 1 ⟨.gamma, .alpha, .epsilon, .delta, .beta⟩,
  .store .beta .epsilon .delta .gamma (-10),
  .load .beta .epsilon .delta .gamma (-14),
  .encipherSbox 2 ⟨.beta, .epsilon, .delta, .gamma, .alpha⟩,
  .store .alpha .epsilon .beta .gamma (-14),
  .load .alpha .epsilon .beta .gamma (-18),
  .encipherSbox 3 ⟨.alpha, .epsilon, .beta, .gamma, .delta⟩,
  .store .gamma .delta .epsilon .alpha (-18),
  .load .gamma .delta .epsilon .alpha (-22),
  .advance (-50),
  .encipherSbox 4 ⟨.gamma, .delta, .epsilon, .alpha, .beta⟩,
  .store .delta .epsilon .alpha .beta 28,
  .load .delta .epsilon .alpha .beta 24,
  .encipherSbox 5 ⟨.delta, .epsilon, .alpha, .beta, .gamma⟩,
  .store .gamma .delta .epsilon .beta 24,
  .load .gamma .delta .epsilon .beta 20,
  .encipherSbox 6 ⟨.gamma, .delta, .epsilon, .beta, .alpha⟩,
  .store .epsilon .alpha .delta .beta 20,
  .load .epsilon .alpha .delta .beta 16,
  .encipherSbox 7 ⟨.epsilon, .alpha, .delta, .beta, .gamma⟩,
  .store .gamma .delta .beta .epsilon 16,
  .load .gamma .delta .beta .epsilon 12,
  .encipherSbox 0 ⟨.gamma, .delta, .beta, .epsilon, .alpha⟩,
  .store .beta .delta .epsilon .gamma 12,
  .load .beta .delta .epsilon .gamma 8,
  .encipherSbox 1 ⟨.beta, .delta, .epsilon, .gamma, .alpha⟩,
  .store .alpha .epsilon .gamma .beta 8,
  .load .alpha .epsilon .gamma .beta 4,
  .encipherSbox 2 ⟨.alpha, .epsilon, .gamma, .beta, .delta⟩,
  .store .delta .epsilon .alpha .beta 4,
  .load .delta .epsilon .alpha .beta 0,
  .encipherSbox 3 ⟨.delta, .epsilon, .alpha, .beta, .gamma⟩,
  .store .beta .gamma .epsilon .delta 0]

/-- serpent.c:66-72 `Read32Bits`, on the four bytes at offset `4*i` of `b`. -/
def serpentRead32 (b : List Byte) (i : Nat) : Word :=
  (b.getD (4 * i) 0).setWidth 32
    ||| (b.getD (4 * i + 1) 0).setWidth 32 <<< 8
    ||| (b.getD (4 * i + 2) 0).setWidth 32 <<< 16
    ||| (b.getD (4 * i + 3) 0).setWidth 32 <<< 24

/-- serpent.c:74-80 `Write32Bits`. -/
def serpentWrite32 (w : Word) : List Byte :=
  [w.setWidth 8, (w >>> 8).setWidth 8, (w >>> 16).setWidth 8, (w >>> 24).setWidth 8]

/-- serpent.c:403-579 `EncipherSerpentBlock`: the 16 bytes written to `ciphertext` for the
`plaintext` bytes `b` and the array `k` of round keys.  `epsilon` is not initialised; no line reads
it before assigning it. -/
def encipherSerpentBlock (k : List Word) (b : List Byte) : Res (List Byte) := do
  let s ← serpentRun encipherSerpentOps ⟨k, 0, 0,
    ⟨serpentRead32 b 0, serpentRead32 b 1, serpentRead32 b 2, serpentRead32 b 3, 0⟩⟩
  .ok (serpentWrite32 s.regs.alpha ++ serpentWrite32 s.regs.beta
    ++ serpentWrite32 s.regs.gamma ++ serpentWrite32 s.regs.delta)

/-- serpent.c:154-335 `DecipherSerpentBlock`. -/
def decipherSerpentBlock (k : List Word) (b : List Byte) : Res (List Byte) := do
  let s ← serpentRun decipherSerpentOps ⟨k, 0, 0,
    ⟨serpentRead32 b 0, serpentRead32 b 1, serpentRead32 b 2, serpentRead32 b 3, 0⟩⟩
  .ok (serpentWrite32 s.regs.gamma ++ serpentWrite32 s.regs.delta
    ++ serpentWrite32 s.regs.beta ++ serpentWrite32 s.regs.epsilon)

/-- serpent.c:686-691 the 32 bytes of key material: at most 32 bytes of the key, then a byte 1,
then zeros. -/
def serpentKeyBytes (key : List Byte) : List Byte :=
  let p := key.take 32
  let p := if p.length < 32 then p ++ [1] else p
  p ++ List.replicate (32 - p.length) 0

/-- serpent.c:637-954 `SetSerpentKey`: the new contents of `serpent_info->crypt_key` from the old
`k` and the key.  The key bytes are written over the first eight words of the array, read back as
little-endian words; the code itself reads them back byte by byte (lines 694-714), so this does not
depend on the byte order of the host. -/
def setSerpentKey (k : List Word) (key : StringInfo) : Res (List Word) := do
  let p := serpentKeyBytes key.bytes
  let mem := (List.range 8).map (serpentRead32 p) ++ k.drop 8
  let s ← serpentRun serpentChurnOps ⟨mem, 0, 0,
    ⟨serpentRead32 p 3, serpentRead32 p 4, serpentRead32 p 5, serpentRead32 p 6,
     serpentRead32 p 7⟩⟩
  let s ← serpentRun serpentSboxOps s
  .ok s.mem

/-- serpent.c:57, 100-113 `AcquireSerpentInfo`: the round keys are zeroed. -/
def acquireSerpentKeys : List Word := List.replicate 132 0

end Wizard
