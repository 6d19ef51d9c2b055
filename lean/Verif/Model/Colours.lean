import Verif.Model.Labels
/-
Model of the colours of debug blocks.
Modelled code: /repo/source/RenderGraph/GraphContext.cpp 201-244 (`getNextRainbowColour`), RunnablePass.cpp 384-386 (where it is
called: once per debug block).
A `float` is a natural number of 2^-30: every value below is a multiple of it. Arithmetic is IEEE single precision, to nearest, ties
to even, each operation rounded on its own (as compiled for SSE; fused or wider arithmetic is not modelled). Exponents have no
bounds: the values are between 2^-27 and 8. `currentColourHue` is a static variable: one for the process, whatever the context; the
calls are taken one after the other (nothing guards it against calls of several threads).
-/
namespace Verif.Rainbow
open Verif.Lab

/-- The result of an operation whose exact result is `n`: 24 significant bits, to nearest, ties to even. -/
def rnd (n : Nat) : Nat :=
  if n < 2 ^ 24 then n
  else
    let u := 2 ^ (n.log2 - 23)
    let q := n / u
    let r := n % u
    (if u < 2 * r || (u == 2 * r && q % 2 == 1) then q + 1 else q) * u

/-- `1.0f`, and `brightness`, `saturation` of 211-212 -/
def one : Nat := 2 ^ 30

/-- `0.0125f`, 204 -/
def incr : Nat := 13421773

/-- 204-209: the static variable after a call. -/
def nextHue (hue : Nat) : Nat :=
  let h := rnd (hue + incr)
  if h > one then 0 else h

/-- A colour: red, green, blue, alpha. -/
structure Colour where
  r : Nat
  g : Nat
  b : Nat
  a : Nat
deriving DecidableEq, Repr

/-- 211-243: the colour for a value of the static variable. `saturation * f` is `f` exactly, `brightness * x` is `x`, and
`1.0f - saturation` (215) is 0. -/
def colourOf (hue : Nat) : Colour :=
  let h := if hue == one then 0 else rnd (hue * 6)
  let f := rnd (h - h / one * one)
  let p := 0
  let q := rnd (one - f)
  let t := rnd (one - rnd (one - f))
  if h < one then ⟨one, t, p, one⟩
  else if h < 2 * one then ⟨q, one, p, one⟩
  else if h < 3 * one then ⟨p, one, t, one⟩
  else if h < 4 * one then ⟨p, q, one, one⟩
  else if h < 5 * one then ⟨t, p, one, one⟩
  else ⟨one, p, q, one⟩

/-- The debug blocks a command buffer gets, with their colours, and the static variable afterwards: RunnablePass.cpp:384-386 calls
`getNextRainbowColour` for each block it begins. -/
def paint (hue : Nat) : List Mark → List (Nat × Colour) × Nat
  | [] => ([], hue)
  | .label p :: r => let x := paint (nextHue hue) r; ((p, colourOf (nextHue hue)) :: x.1, x.2)
  | .endLabel :: r => paint hue r
  | .stamp _ :: r => paint hue r
  | .cmd _ :: r => paint hue r

/-- All the recordings of a process, in their order: of any graphs and contexts, as the variable is static (203). -/
def paintAll (hue : Nat) : List (List Mark) → List (List (Nat × Colour))
  | [] => []
  | m :: r => (paint hue m).1 :: paintAll (paint hue m).2 r

end Verif.Rainbow
