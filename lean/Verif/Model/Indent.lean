import Verif.Model.DotText
/-
Model of the indent buffers of the streams of the DOT export, and of the table that owns them, under threads.
Modelled code: /repo/source/RenderGraph/DotExport.cpp:95-183 (`BasicIndentBufferManager`: `insert`, `getBuffer`, `erase`), 211-218
(`installIndentBuffer`), 220-230 (`callback`), 232-246 (`operator<<` for `Indent`); the characters as Model/DotText.lean.
A stream is known by its address, which another stream may get once it is destroyed; the operations of a thread name the addresses
its streams were given. Each function of the table locks its mutex for the whole of its access to the map: each is one step here;
steps of threads interleave. Writing to a stream is one step (streams are not shared: this is what the hypotheses on programs say).
Left out: the end of the program (`~BasicIndentBufferManager`, 114-130), moving a stream.
-/
namespace Verif.Ind
open Verif.Dot (Stream)

/-- What a thread does with the stream at an address: constructs it, `<< Indent{ i }`, `<< text`, destroys it. -/
inductive Op where
  | create (a : Nat)
  | indent (a : Nat) (i : Int)
  | put (a : Nat) (text : List Char)
  | destroy (a : Nat)
deriving DecidableEq, Repr

/-- Where a thread is: between two operations, or within `operator<<` (after the buffer's allocation: `insert`, `rdbuf`,
`register_callback` with the indentation itself) or within the destructor (the callbacks: `getBuffer`, `delete`, `erase`; then the
end of the stream). -/
inductive Pc where
  | idle
  | insert (a b : Nat) (i : Int)
  | install (a b : Nat) (i : Int)
  | register (a b : Nat) (i : Int)
  | look (a n : Nat)
  | delete (a n : Nat) (b : Option Nat)
  | erase (a n : Nat)
  | release (a : Nat)
deriving DecidableEq, Repr

/-- A stream: what its own `stringbuf` holds, the indent buffer `rdbuf` is (none: the `stringbuf`), how often the callback is
registered. -/
structure Obj where
  text : List Char := []
  rdbuf : Option Nat := none
  callbacks : Nat := 0
deriving DecidableEq, Repr

/-- Streams by address; indent buffers by identity (`m_count`, `m_set`), none once deleted; the table `m_list`; the number of the
next buffer; where the threads are and what they still do; the texts of the streams each thread destroyed; whether something that
doesn't exist (any more) was used or deleted. -/
structure World where
  streams : Nat → Option Obj := fun _ => none
  heap : Nat → Option (Nat × Bool) := fun _ => none
  table : Nat → Option Nat := fun _ => none
  next : Nat := 0
  pc : Nat → Pc := fun _ => .idle
  rest : Nat → List Op
  out : Nat → List (List Char) := fun _ => []
  fault : Bool := false

/-- A function changed at one argument. -/
def upd {α} (f : Nat → α) (k : Nat) (x : α) : Nat → α := fun j => if j = k then x else f j

/-- A thread goes to another place. -/
def World.goto (w : World) (t : Nat) (p : Pc) : World := { w with pc := upd w.pc t p }

/-- Something is used that doesn't exist. -/
def World.bad (w : World) : World := { w with fault := true }

/-- `sbuf->indent( i )`, 244 with 51-55. -/
def World.bump (w : World) (b : Nat) (i : Int) : World :=
  match w.heap b with
  | none => w.bad
  | some c => { w with heap := upd w.heap b (Stream.indent ⟨[], some c⟩ i).buf }

/-- Characters are written to a stream: through its indent buffer if it has one (63-87). -/
def World.write (w : World) (a : Nat) (o : Obj) (text : List Char) : World :=
  match o.rdbuf with
  | none => { w with streams := upd w.streams a (some { o with text := (Stream.put ⟨o.text, none⟩ text).text }) }
  | some b =>
    match w.heap b with
    | none => w.bad
    | some c =>
      let s := Stream.put ⟨o.text, some c⟩ text
      { w with streams := upd w.streams a (some { o with text := s.text }), heap := upd w.heap b s.buf }

/-- The next operation of a thread begins (and ends, unless it goes to another place). -/
def World.begin (w : World) (t : Nat) : Op → World
  | .create a =>
    match w.streams a with
    | none => { w with streams := upd w.streams a (some {}) }
    | some _ => w.bad
  | .indent a i =>
    match w.streams a with
    | none => w.bad
    | some o =>
      match o.rdbuf with
      | some b => w.bump b i
      | none => { w with heap := upd w.heap w.next (some (0, true)), next := w.next + 1, pc := upd w.pc t (.insert a w.next i) }
  | .put a text =>
    match w.streams a with
    | none => w.bad
    | some o => w.write a o text
  | .destroy a =>
    match w.streams a with
    | none => w.bad
    | some o =>
      { w with out := upd w.out t (w.out t ++ [o.text]), pc := upd w.pc t (if o.callbacks = 0 then .release a else .look a o.callbacks) }

/-- The step of a thread within an operation. -/
def World.continue (w : World) (t : Nat) : Pc → World
  | .idle => w
  /- `m_list.emplace`, 132-136: keeps what is there -/
  | .insert a b i => { w with table := upd w.table a (some ((w.table a).getD b)), pc := upd w.pc t (.install a b i) }
  /- `stream.rdbuf( sbuf )`, 216 -/
  | .install a b i =>
    match w.streams a with
    | none => w.bad
    | some o => { w with streams := upd w.streams a (some { o with rdbuf := some b }), pc := upd w.pc t (.register a b i) }
  /- `register_callback`, `indent`, 240-244 -/
  | .register a b i =>
    match w.streams a with
    | none => w.bad
    | some o => ({ w with streams := upd w.streams a (some { o with callbacks := o.callbacks + 1 }), pc := upd w.pc t .idle }).bump b i
  /- `getBuffer`, 144-156 -/
  | .look a n => w.goto t (.delete a n (w.table a))
  /- `delete`, 160: nothing for a null pointer -/
  | .delete a n b =>
    match b with
    | none => w.goto t (.erase a n)
    | some b => if w.heap b = none then w.bad else { w with heap := upd w.heap b none, pc := upd w.pc t (.erase a n) }
  /- `m_list.erase`, 161-162; then the next callback, or the end -/
  | .erase a n => { w with table := upd w.table a none, pc := upd w.pc t (if n ≤ 1 then .release a else .look a (n - 1)) }
  | .release a => { w with streams := upd w.streams a none, pc := upd w.pc t .idle }

/-- A step of a thread. A stream is only constructed at an address that is free. -/
inductive Next (t : Nat) : World → World → Prop where
  | begin {w : World} {op : Op} {r : List Op} (hp : w.pc t = .idle) (hr : w.rest t = op :: r)
      (hf : ∀ a, op = .create a → w.streams a = none) : Next t w ({ w with rest := upd w.rest t r }.begin t op)
  | continue {w : World} (hp : w.pc t ≠ .idle) : Next t w (w.continue t (w.pc t))

/-- The runs of programs, one per thread, in all interleavings. -/
inductive Reach (prog : Nat → List Op) : World → Prop where
  | start : Reach prog { rest := prog }
  | step {w w' : World} {t : Nat} (h : Reach prog w) (n : Next t w w') : Reach prog w'

end Verif.Ind
