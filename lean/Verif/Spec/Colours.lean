import Verif.Model.Labels
import Verif.Model.Colours
/-!
C106: what a debug colour is, and what single precision means. Numbers are counted in units of 2^-30.
-/
namespace Verif.Rainbow
open Verif.Lab

/-- Representable with `p` significant bits. -/
def Fits (p n : Nat) : Prop := ∃ m e : Nat, m < 2 ^ p ∧ n = m * 2 ^ e

/-- The distance of two numbers. -/
def dist (a b : Nat) : Nat := (a - b) + (b - a)

/-- IEEE 754 single precision, to nearest, ties to even: of the numbers of 24 bits none is nearer, and if another one is as near the
last bit is 0, so that 23 bits are enough. -/
def Nearest (n r : Nat) : Prop :=
  Fits 24 r ∧ (∀ k, Fits 24 k → dist n r ≤ dist n k) ∧ (∀ k, Fits 24 k → dist n k = dist n r → k ≠ r → Fits 23 r)

/-- An opaque, bright, saturated colour: the components are at most 1, one is 1, one is 0. -/
def Colour.Vivid (c : Colour) : Prop :=
  c.r ≤ 2 ^ 30 ∧ c.g ≤ 2 ^ 30 ∧ c.b ≤ 2 ^ 30 ∧ c.a = 2 ^ 30 ∧
  (c.r = 2 ^ 30 ∨ c.g = 2 ^ 30 ∨ c.b = 2 ^ 30) ∧ (c.r = 0 ∨ c.g = 0 ∨ c.b = 0)

/-- Some component differs by at least `d`. -/
def Colour.Apart (d : Nat) (a b : Colour) : Prop := d ≤ dist a.r b.r ∨ d ≤ dist a.g b.g ∨ d ≤ dist a.b b.b

/-- The passes whose debug blocks a command buffer begins, in their order. -/
def labelled : List Mark → List Nat := List.filterMap fun m => match m with | .label p => some p | _ => none

end Verif.Rainbow
