/-
Model of the logger shared by threads.
Modelled code: /repo/source/RenderGraph/Log.cpp:14-101, /repo/include/RenderGraph/Log.hpp:21-92.
Simplifications: a callback is known by a number; what it does when called (`Body`) is a list of calls of the logger and of
insertions in streams; an insertion in a stream is one step; the construction of the instance (`static`, line 96) is done before the
threads start; what a `std::function` read while it is assigned contains is not modelled (that is the race).
-/
namespace Verif.Logger

/-- The five members of the logger, Log.hpp:86-90. -/
inductive Level where
  | trace | debug | info | warning | error
deriving DecidableEq, Repr

/-- The standard streams the default callbacks write to. -/
inductive Stream where
  | clog | cout | cerr
deriving DecidableEq, Repr

/-- A message, and whether a line ends with it. -/
structure Msg where
  text : String
  newLine : Bool
deriving DecidableEq, Repr

/-- What a thread, or a callback, does. -/
inductive Op where
  /-- `logTrace`, `logDebug`, `logInfo`, `logWarning`, `logError` -/
  | log (l : Level) (m : Msg)
  /-- `setTraceCallback`, … -/
  | set (l : Level) (callback : Nat)
  /-- `stream << text` -/
  | put (st : Stream) (text : String)
deriving DecidableEq, Repr

/-- What a callback does with a message. -/
abbrev Body := Nat → Msg → List Op

/-- `doLog`, Log.cpp:16-27: the message, then `std::endl`. -/
def doLog (st : Stream) (m : Msg) : List Op := .put st m.text :: if m.newLine then [.put st "\n"] else []

/-- The default callbacks, Log.cpp:30-37: 0 to `std::clog`, 1 to `std::cout`, 2 to `std::cerr`; the others are the user's. -/
def bodyOf (user : Body) : Body
  | 0, m => doLog .clog m
  | 1, m => doLog .cout m
  | 2, m => doLog .cerr m
  | c, m => user c m

/-- The constructor, Log.cpp:30-37. -/
def defaults : Level → Nat
  | .trace | .debug => 0
  | .info | .warning => 1
  | .error => 2

/-- Atomic steps. -/
inductive Step where
  /-- the `lock_type` of `doGetInstance` is constructed, destroyed: Log.cpp:98-100 -/
  | acquire | release
  /-- the call operator of the `std::function` of the level starts: Log.cpp:42, 47, 52, 57, 62 -/
  | call (l : Level) (m : Msg)
  /-- that call returns -/
  | ret (l : Level)
  /-- the assignment of the `std::function` of the level starts: Log.cpp:67, 72, 77, 82, 87 -/
  | assign (l : Level) (callback : Nat)
  /-- it ends -/
  | assigned (l : Level)
  | put (st : Stream) (text : String)
deriving DecidableEq, Repr

/-- The steps of an operation: `doGetInstance` (Log.cpp:94-100), then the access to the member. -/
def code : Op → List Step
  | .log l m => [.acquire, .release, .call l m]
  | .set l c => [.acquire, .release, .assign l c]
  | .put st text => [.put st text]

/-- What can be observed: a callback is called for a message of a level; a text goes to a stream. -/
inductive Event where
  | called (l : Level) (callback : Nat) (m : Msg)
  | wrote (st : Stream) (text : String)
deriving DecidableEq, Repr

/-- The logger, and what each thread still has to do. -/
structure St where
  callbacks : Level → Nat
  holder : Option Nat
  rest : Nat → List Step
  out : List (Nat × Event)

/-- `f` with another value at `a`. -/
def upd {α β : Type} [DecidableEq α] (f : α → β) (a : α) (b : β) : α → β := fun x => if x = a then b else f x

/-- Thread `t` does its next step. -/
inductive Next (body : Body) : St → St → Prop where
  | acquire (s : St) (t : Nat) (r : List Step) : s.rest t = .acquire :: r → s.holder = none →
      Next body s { s with holder := some t, rest := upd s.rest t r }
  | release (s : St) (t : Nat) (r : List Step) : s.rest t = .release :: r → s.holder = some t →
      Next body s { s with holder := none, rest := upd s.rest t r }
  | call (s : St) (t : Nat) (l : Level) (m : Msg) (r : List Step) : s.rest t = .call l m :: r →
      Next body s { s with rest := upd s.rest t ((body (s.callbacks l) m).flatMap code ++ .ret l :: r),
                           out := s.out ++ [(t, .called l (s.callbacks l) m)] }
  | ret (s : St) (t : Nat) (l : Level) (r : List Step) : s.rest t = .ret l :: r →
      Next body s { s with rest := upd s.rest t r }
  | assign (s : St) (t : Nat) (l : Level) (c : Nat) (r : List Step) : s.rest t = .assign l c :: r →
      Next body s { s with callbacks := upd s.callbacks l c, rest := upd s.rest t (.assigned l :: r) }
  | assigned (s : St) (t : Nat) (l : Level) (r : List Step) : s.rest t = .assigned l :: r →
      Next body s { s with rest := upd s.rest t r }
  | put (s : St) (t : Nat) (st : Stream) (text : String) (r : List Step) : s.rest t = .put st text :: r →
      Next body s { s with rest := upd s.rest t r, out := s.out ++ [(t, .wrote st text)] }

/-- The threads start with their programs. -/
def init (callbacks : Level → Nat) (progs : Nat → List Op) : St :=
  ⟨callbacks, none, fun t => (progs t).flatMap code, []⟩

/-- States the threads can get to. -/
inductive Reach (body : Body) (s0 : St) : St → Prop where
  | start : Reach body s0 s0
  | next {s s' : St} : Reach body s0 s → Next body s s' → Reach body s0 s'

end Verif.Logger
