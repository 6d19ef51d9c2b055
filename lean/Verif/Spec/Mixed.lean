import Verif.Spec.Graph
/-
Vocabulary of C92: uses of views that may overlap (single levels or layers, then the whole image), and what they leave.
Nothing here speaks of the tracker.
-/
namespace Verif.Run
open Verif.Rec Verif.Att Verif.Gpu

/-- A use of a view, and the layout it puts the view in. -/
structure ViewUse where
  view : View
  layout : Nat
deriving DecidableEq, Repr

/-- The layout last given to each (image, layer, level), if any. -/
abbrev Left := Nat → Nat → Nat → Option Nat

/-- One more use. -/
def Left.after (h : Left) (u : ViewUse) : Left :=
  fun i l m => if i = u.view.image.id ∧ u.view.range.Has l m then some u.layout else h i l m

/-- More uses, in order. -/
def Left.afterAll (h : Left) (us : List ViewUse) : Left := us.foldl Left.after h

/-- Nothing of the view was given a layout. -/
def Left.Untouched (h : Left) (v : View) : Prop := ∀ l m, v.range.Has l m → h v.image.id l m = none

/-- All of the view was last given one same layout, or nothing of it any layout. -/
def Left.Settled (h : Left) (v : View) : Prop :=
  h.Untouched v ∨ ∃ x, x ≠ Layout.undefined ∧ ∀ l m, v.range.Has l m → h v.image.id l m = some x

/-- Each use finds its view settled; one that finds its view untouched finds it settled in the layouts the graph declares
for its inputs and in those the previous execution left. -/
def Orderly (inputs kept : Left) : Left → List ViewUse → Prop
  | _, [] => True
  | h, u :: us => h.Settled u.view ∧ (h.Untouched u.view → inputs.Settled u.view ∧ kept.Settled u.view)
    ∧ Orderly inputs kept (h.after u) us

/-- The layouts of a map of states. -/
def leftIn (m : LayoutMap) : Left := fun i l k => (m.at i l k).map (·.layout)

/-- An ordinary view: of an image of the known format, not 3D, of all aspects, and of something. -/
structure PlainView (sepDS : Bool) (fmt : Nat → Nat) (v : View) : Prop where
  format : v.image.format = fmt v.image.id
  view : v.viewType ≠ .d3
  aspect : WholeAspect sepDS v.image.format v.range.aspect
  some : v.range.NonEmpty

/-- What the attachments of a pass use: those whose images are put in the declared layouts before the body (sampled,
storage, transfer and transition views). -/
def attachUses (sepDS : Bool) (index : Nat) (p : RunPass) : List ViewUse :=
  p.images.filterMap fun a => if moved a then (a.img.view index).map fun v => ⟨v, a.getImageLayout sepDS⟩ else none

/-- What the calls of a body use: the views it asks barriers of. -/
def callUses (cs : List Call) : List ViewUse :=
  cs.filterMap fun | .barrier v _ w _ => some ⟨v, w.layout⟩ | _ => none

/-- The uses of one recording: of each enabled pass in order, its attachments', then its body's. -/
def graphUses (sepDS : Bool) (en : Nat → Bool) (index : Nat → Nat) (body : RunPass → Nat → List ViewUse)
    (ps : List RunPass) : List ViewUse :=
  ps.flatMap fun p => if en p.id then attachUses sepDS (index p.id) p ++ body p (index p.id) else []

/-- A call a body may make: barriers without initial layout, buffer barriers, its own commands. -/
def PlainCall : Call → Prop
  | .barrier _ i w _ => i = Layout.undefined ∧ w.layout ≠ Layout.undefined
  | .buffer _ | .work _ => True
  | _ => False

/-- The images of the pass are in the layouts its attachments declare. -/
def Ready (sepDS : Bool) (fmt : Nat → Nat) (g : Layouts) (p : RunPass) (index : Nat) : Prop :=
  ∀ a ∈ p.images, moved a = true → ∀ v, a.img.view index = some v → InLayout fmt g v (a.getImageLayout sepDS)

/-- What a body is made of: calls on the context, and commands that need views in given layouts. -/
inductive BodyStep where
  | call (c : Call)
  | cmd (c : Cmd) (needs : List ViewUse)

/-- Perform a step. -/
def BodyStep.perform (sepDS : Bool) (r : Rec) : BodyStep → Rec
  | .call c => Gpu.perform sepDS r c
  | .cmd c _ => r.emit c

/-- The views a step uses. -/
def BodyStep.uses : BodyStep → List ViewUse
  | .call c => callUses [c]
  | .cmd _ _ => []

/-- The steps are calls a body may make, and commands that change no layout and are valid when the views they need are in
the layouts they need them in; these are layouts that `declared` gives, of views apart from those used since (`since`). -/
def StepsOk (fmt : Nat → Nat) (declared : List ViewUse) : List ViewUse → List BodyStep → Prop
  | _, [] => True
  | since, .call c :: rest => PlainCall c ∧ StepsOk fmt declared (since ++ callUses [c]) rest
  | since, .cmd c needs :: rest =>
    ((∀ g, exec g c = g) ∧ (∀ g, (∀ u ∈ needs, InLayout fmt g u.view u.layout) → Valid g c)
      ∧ ∀ u ∈ needs, u ∈ declared ∧ ∀ w ∈ since, View.Apart u.view w.view)
    ∧ StepsOk fmt declared since rest

/-- What a body does: such steps, using `us`. -/
def BodyDoes (sepDS : Bool) (fmt : Nat → Nat) (p : RunPass) (index : Nat) (us : List ViewUse) : Prop :=
  ∀ r : Rec, ∃ steps : List BodyStep, p.body index r = steps.foldl (BodyStep.perform sepDS) r
    ∧ StepsOk fmt (attachUses sepDS index p) [] steps ∧ steps.flatMap BodyStep.uses = us

/-- A graph whose passes may use parts and wholes of images: its views are ordinary, it registers no implicit action, the
attachments of one pass that share something declare the same layout, and its bodies do what is said. -/
structure MixedGraph (sepDS : Bool) (fmt : Nat → Nat) (passes : List RunPass) (body : RunPass → Nat → List ViewUse) :
    Prop where
  attached : ∀ p ∈ passes, ∀ index, ∀ u ∈ attachUses sepDS index p ++ body p index,
    PlainView sepDS fmt u.view ∧ u.layout ≠ Layout.undefined
  alone : ∀ p ∈ passes, p.implicitActions = []
  agree : ∀ p ∈ passes, ∀ index, ∀ u ∈ attachUses sepDS index p, ∀ w ∈ attachUses sepDS index p,
    View.Apart u.view w.view ∨ u.layout = w.layout
  bodies : ∀ p ∈ passes, ∀ index, BodyDoes sepDS fmt p index (body p index)

/-- Nothing was given a layout. -/
def Left.nothing : Left := fun _ _ _ => none

end Verif.Run
