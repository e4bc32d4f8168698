import Verif.Stdio.Model
set_option autoImplicit false
/-! What buffered input and output must do, said without buffers. -/
namespace Smlr.Stdio

/-- a stream just opened for input, possibly given to `setvbuf` with a buffer of at least one byte -/
def Opened (base f : File) : Prop := f = base ∨ ∃ nbf lbf size, 1 ≤ size ∧ f = setvbuf base nbf lbf size

/-! ### input -/

inductive ROp
  | getc
  | read (esize ecount : Nat)
  | gets (n : Nat)
  | ungetc (c : UInt8)
  deriving DecidableEq

inductive ROut
  | byte (c : Option UInt8)
  | data (b : Str) (n : Nat)
  | line (s : Option Str)
  | pushed (ok : Bool)
  deriving DecidableEq

/-- a text up to and including its first newline -/
def upToNl : Str → Str
  | [] => []
  | c :: s => if c = 0x0A then [c] else c :: upToNl s

/-- one input operation on the bytes still to be delivered.  The Boolean says whether one character may be pushed back.
`io`: some read of the underlying file fails. -/
inductive RStep (io : Prop) : Str → Bool → ROp → ROut → Str → Bool → Prop
  | getc (c r p) : RStep io (c :: r) p .getc (.byte (some c)) r true
  | getcEnd (p) : RStep io [] p .getc (.byte none) [] false
  | getcErr (r p) : io → RStep io r p .getc (.byte none) r false
  | read0 (es ec r p) : es * ec = 0 → RStep io r p (.read es ec) (.data [] 0) r p
  | read (es ec r p) : 0 < es * ec → es * ec ≤ r.length → RStep io r p (.read es ec) (.data (r.take (es * ec)) ec) (r.drop (es * ec)) true
  | readEnd (es ec r p) : r.length < es * ec → RStep io r p (.read es ec) (.data r (r.length / es)) [] false
  | readErr (es ec k r p) : io → k ≤ r.length → k < es * ec → RStep io r p (.read es ec) (.data (r.take k) (k / es)) (r.drop k) false
  | gets1 (n r p) : n ≤ 1 → RStep io r p (.gets n) (.line (some [])) r p
  | gets (n r p) : 2 ≤ n → (0x0A ∈ r ∨ n - 1 ≤ r.length) →
      RStep io r p (.gets n) (.line (some (upToNl (r.take (n - 1))))) (r.drop (upToNl (r.take (n - 1))).length) true
  | getsEnd (n r p) : r.length < n - 1 → 0x0A ∉ r → RStep io r p (.gets n) (.line (if r = [] then none else some r)) [] false
  | getsErr (n k r p) : io → k ≤ r.length → k < n - 1 → 0x0A ∉ r.take k →
      RStep io r p (.gets n) (.line (if k = 0 then none else some (r.take k))) (r.drop k) false
  | push (c r p) : RStep io r p (.ungetc c) (.pushed true) (c :: r) false
  | pushFail (c r) : RStep io r false (.ungetc c) (.pushed false) r false

/-- a sequence of operations with their results -/
inductive RTrace (io : Prop) : Str → Bool → List ROp → List ROut → Str → Prop
  | nil (r p) : RTrace io r p [] [] r
  | cons {r p o u r1 p1 os us r2} : RStep io r p o u r1 p1 → RTrace io r1 p1 os us r2 → RTrace io r p (o :: os) (u :: us) r2

def rstep (cfg : Cfg) (o : ROp) (f : File) (os : Os) : Res ROut :=
  match o with
  | .getc => (fgetc cfg f os).map fun (r, s) => (.byte r, s)
  | .read es ec => (fread cfg es ec f os).map fun (r, s) => (.data r.1 r.2, s)
  | .gets n => (fgets cfg n f os).map fun (r, s) => (.line r, s)
  | .ungetc c => (ungetc c f os).map fun (r, s) => (.pushed r, s)

/-- what the operations return, one after the other -/
def rrun (cfg : Cfg) : List ROp → File → Os → Res (List ROut)
  | [], f, os => some ([], f, os)
  | o :: ops, f, os =>
    match rstep cfg o f os with
    | none => none
    | some (u, f, os) =>
      match rrun cfg ops f os with
      | none => none
      | some (us, f, os) => some (u :: us, f, os)

/-! ### output -/

inductive WOp
  | putc (c : UInt8)
  | write (b : Str) (esize ecount : Nat)
  | flush
  deriving DecidableEq

def WOp.bytes : WOp → Str
  | .putc c => [c]
  | .write b _ _ => b
  | .flush => []

/-- the array given to `fwrite` has `esize * ecount` bytes -/
def WOp.Ok : WOp → Prop
  | .write b es ec => b.length = es * ec
  | _ => True

/-- one output operation and whether it reported success; for an empty array, `fwrite` returns 0, which is no failure -/
def wstep (cfg : Cfg) (o : WOp) (f : File) (os : Os) : Res Bool :=
  match o with
  | .putc c => fputc cfg c f os
  | .write b es ec => (fwrite cfg b es ec f os).map fun (r, s) => (decide (r = ec) || decide (es * ec = 0), s)
  | .flush => some (fflush f os)

def wrun (cfg : Cfg) : List WOp → File → Os → Res (List Bool)
  | [], f, os => some ([], f, os)
  | o :: ops, f, os =>
    match wstep cfg o f os with
    | none => none
    | some (u, f, os) =>
      match wrun cfg ops f os with
      | none => none
      | some (us, f, os) => some (u :: us, f, os)

/-- `c'` is the file `c` with the bytes `b` laid over it from position `p` on (a gap beyond the end reads as zeroes) -/
def Overlaid (c : Str) (p : Nat) (b c' : Str) : Prop :=
  c'.length = (if b = [] then c.length else max c.length (p + b.length)) ∧
  ∀ i, i < c'.length → c'[i]? = if p ≤ i ∧ i < p + b.length then b[i - p]? else if i < c.length then c[i]? else some 0

/-! ### mixed use -/

/-- streams a program can get by opening, reading, writing, flushing and positioning, each used as the C standard allows:
no read right after a write and no write right after a read without positioning in between; writes that fail end it -/
inductive Reach (cfg : Cfg) : File → Os → Prop
  | openRead (f os) : Opened openRead f → os.append = false → Reach cfg f os
  | openWrite (f os) : Opened openWrite f → os.append = false → Reach cfg f os
  | openAppend (f os) : Opened openAppend f → os.append = true → Reach cfg f os
  | openUpdate (f os) : Opened openUpdate f → os.append = false → Reach cfg f os
  | read (o f os u f' os') : Reach cfg f os → f.wr = false → rstep cfg o f os = some (u, f', os') → Reach cfg f' os'
  | write (o f os f' os') : Reach cfg f os → f.rd = false → WOp.Ok o → wstep cfg o f os = some (true, f', os') → Reach cfg f' os'
  | flush (f os f' os') : Reach cfg f os → fflush f os = (true, f', os') → Reach cfg f' os'
  | seek (off w f os f' os') : Reach cfg f os → fseek off w f os = (true, f', os') → Reach cfg f' os'
  | seekFail (off w f os f' os') : Reach cfg f os → f.wr = false → fseek off w f os = (false, f', os') → Reach cfg f' os'
  | rewind (f os) : Reach cfg f os → (fflush f os).1 = true → Reach cfg (rewind f os).1 (rewind f os).2

/-- where `fseek` must lead: from the beginning, the current position, the end -/
def dest (w : Whence) (off cur : Int) (len : Nat) : Int :=
  match w with
  | .set => off
  | .cur => cur + off
  | .end => len + off

/-- the relative seeks that go right: nothing is left in the input buffer, or the stream was opened for reading only,
has no pushed back character, and the target lies in the buffer -/
def InBuffer (f : File) (off : Int) (w : Whence) : Prop :=
  w = .cur → f.rd = true → f.cnt ≠ 0 → f.rwok = false ∧ f.ungot = false ∧ -(f.ptr : Int) ≤ off ∧ off ≤ f.cnt

end Smlr.Stdio
