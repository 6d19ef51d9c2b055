import Verif.Model.RunnableGraph
import Verif.Spec.Recording
/-
Specification vocabulary for whole graphs: which graphs are "tidy", what an honest start is.
-/
namespace Verif.Run
open Verif.Rec Verif.Att Verif.Gpu

/-- The views an implicit action moves. -/
def touched : Action → List View
  | .nothing | .user _ => []
  | .copy s d _ _ _ | .blit s d _ _ _ _ _ _ _ _ _ _ => [s, d]
  | .clear d _ _ => [d]

/-- `x` is attached, as an image, to one of the passes. -/
def AttachedTo (passes : List RunPass) (x : View) : Prop := ∃ p ∈ passes, ∃ a ∈ p.images, x ∈ a.img.views

/-- An implicit action registered for `v` only moves views which are apart from all attached views, but those
that are `v` itself. -/
def ActionLocal (passes : List RunPass) (v : View) (act : Action) : Prop :=
  ∀ w ∈ touched act, ∀ x, AttachedTo passes x → View.Apart x w ∨ View.Same x v

/-- A call a pass body may make: barriers without assumption on the initial layout, buffer barriers, implicit
registrations and uses, all within the family, and its own draws and dispatches. -/
def BodyCall (V : View → Prop) (passes : List RunPass) : Call → Prop
  | .barrier v i w _ => V v ∧ w.layout ≠ Layout.undefined ∧ i = Layout.undefined
  | .buffer _ => True
  | .register t => V t.view ∧ ActionIn V t.action ∧ ActionLocal passes t.view t.action
  | .use _ _ | .work _ => True

/-- Ordinary graphs: all attached views belong to a tidy family (no 3D views, all aspects at once, views equal or
apart), a pass does not attach overlapping views, implicit attachments ask for a layout, and implicit actions only
touch their own view and unattached ones. -/
structure TidyViews (sepDS : Bool) (fmt : Nat → Nat) (V : View → Prop) (passes : List RunPass) : Prop where
  tidy : Tidy sepDS fmt V
  ids : ∀ u v, V u → V v → u.id = v.id → u = v
  attached : ∀ x, AttachedTo passes x → V x ∧ x.range.NonEmpty
  layouts : ∀ p ∈ passes, ∀ a ∈ p.images, moved a = true → a.getImageLayout sepDS ≠ Layout.undefined
  apart : ∀ p ∈ passes, ∀ index, p.images.Pairwise fun a b =>
    ∀ v w, a.img.view index = some v → b.img.view index = some w → View.Apart v w
  actions : ∀ p ∈ passes, ∀ va ∈ p.implicitActions, V va.1 ∧ ActionIn V va.2 ∧ ActionLocal passes va.1 va.2

/-- Ordinary graphs whose pass bodies only use the recording context. -/
structure TidyGraph (sepDS : Bool) (fmt : Nat → Nat) (V : View → Prop) (passes : List RunPass) : Prop
    extends TidyViews sepDS fmt V passes where
  bodies : ∀ p ∈ passes, ∀ index r, ∃ calls, (∀ c ∈ calls, BodyCall V passes c)
    ∧ p.body index r = performAll sepDS r calls

/-- State of a subresource as far as the graph can know when recording starts: imported from dependencies, else
declared as input, else left by the previous execution. -/
def known (c : Ctx) (G : GraphSt) (i l m : Nat) : Option LayoutState :=
  match c.images.at i l m with
  | some s => some s
  | none => match G.inputs.at i l m with
    | some s => some s
    | none => G.final.images.at i l m

/-- The view is wholly unknown or wholly in one known state, with an actual layout. -/
def Whole (m : LayoutMap) (v : View) : Prop :=
  (∀ l k, v.range.Has l k → m.at v.image.id l k = none)
    ∨ ∃ s : LayoutState, s.layout ≠ Layout.undefined ∧ ∀ l k, v.range.Has l k → m.at v.image.id l k = some s

/-- What the graph knows when recording starts is true of the GPU, and known view by view. -/
structure Honest (fmt : Nat → Nat) (V : View → Prop) (g0 : Layouts) (c : Ctx) (G : GraphSt) : Prop where
  true' : ∀ i a l m s, HasAspect (fmt i) a → known c G i l m = some s → g0 i a l m = s.layout
  start : ∀ v, V v → Whole c.images v
  inputs : ∀ v, V v → Whole G.inputs v
  final : ∀ v, V v → Whole G.final.images v

/-- The image is, on the GPU, wholly in the layout. -/
def InLayout (fmt : Nat → Nat) (g : Layouts) (v : View) (layout : Nat) : Prop :=
  ∀ a l m, HasAspect (fmt v.image.id) a → v.range.Has l m → g v.image.id a l m = layout

end Verif.Run
