import Verif.Spec.MixedDraw
/-
Vocabulary of C92 for passes that register actions, to be run in their place when they are disabled.
-/
namespace Verif.Run
open Verif.Rec Verif.Att Verif.Gpu Verif.RPass

/-- The layout asked for at the end, if any. -/
def finalUse (v : View) (final : Nat) : List ViewUse := if final = Layout.undefined then [] else [⟨v, final⟩]

/-- What an action uses, in order: a copy or a blit its source then its destination, a clear what it clears. -/
def actionUses : Action → List ViewUse
  | .nothing | .user _ => []
  | .copy src dst _ _ final => ⟨src, Layout.transferSrc⟩ :: ⟨dst, Layout.transferDst⟩ :: finalUse dst final
  | .blit src dst _ _ _ _ _ _ _ _ _ final => ⟨src, Layout.transferSrc⟩ :: ⟨dst, Layout.transferDst⟩ :: finalUse dst final
  | .clear dst _ final => ⟨dst, Layout.transferDst⟩ :: finalUse dst final

/-- The view a copy or a blit reads. -/
def actionSource : Action → Option View
  | .copy src _ _ _ _ | .blit src _ _ _ _ _ _ _ _ _ _ _ => some src
  | _ => none

/-- A copy or a blit is between views that share nothing. -/
def ActionApart : Action → Prop
  | .copy src dst _ _ _ | .blit src dst _ _ _ _ _ _ _ _ _ _ => View.Apart src dst
  | _ => True

/-- An attachment with the view `v` is met while the actions `pend` are pending (at most `n` of them): what is used in
consequence, and what remains pending. The first action of this view is no longer pending; it is done unless the pass that
registered it is enabled, and after the one of its source. -/
def claimN (en : Nat → Bool) : Nat → List Implicit → View → List ViewUse × List Implicit
  | 0, pend, _ => ([], pend)
  | n + 1, pend, v =>
    match pend.find? (fun t => t.view.id == v.id) with
    | none => ([], pend)
    | some t =>
      let left := pend.eraseP (fun t => t.view.id == v.id)
      if en t.pass then ([], left)
      else match actionSource t.action with
        | some src => ((claimN en n left src).1 ++ actionUses t.action, (claimN en n left src).2)
        | none => (actionUses t.action, left)

def claim (en : Nat → Bool) (pend : List Implicit) (v : View) : List ViewUse × List Implicit := claimN en pend.length pend v

/-- The same for an attachment at an index. -/
def claimAt (en : Nat → Bool) (index : Nat) (pend : List Implicit) (a : Attachment) : List ViewUse × List Implicit :=
  match a.img.view index with
  | some v => claim en pend v
  | none => ([], pend)

/-- What an attachment uses itself (as `attachUses`). -/
def ownUse (sepDS : Bool) (index : Nat) (a : Attachment) : List ViewUse :=
  (if moved a then (a.img.view index).map fun v => (⟨v, a.getImageLayout sepDS⟩ : ViewUse) else none).toList

/-- What is used before the body of a pass with these attachments, and what is pending then. -/
def imageUses (sepDS : Bool) (en : Nat → Bool) (index : Nat) : List Implicit → List Attachment → List ViewUse × List Implicit
  | pend, [] => ([], pend)
  | pend, a :: as =>
    let c := claimAt en index pend a
    let rest := imageUses sepDS en index c.2 as
    (c.1 ++ (ownUse sepDS index a ++ rest.1), rest.2)

/-- What is used after an attachment was put in the layout it declares, and before the body, leaves it in this layout. -/
def Lasting (sepDS : Bool) (en : Nat → Bool) (index : Nat) : List Implicit → List Attachment → Prop
  | _, [] => True
  | pend, a :: as =>
    (∀ u ∈ ownUse sepDS index a, ∀ w ∈ (imageUses sepDS en index (claimAt en index pend a).2 as).1,
      View.Apart u.view w.view ∨ u.layout = w.layout)
    ∧ Lasting sepDS en index (claimAt en index pend a).2 as

/-- The actions a pass registers. -/
def registered (p : RunPass) : List Implicit := p.implicitActions.map fun va => ⟨p.id, va.1, va.2⟩

/-- The uses of one recording, in order, `pend` being pending at its start: of each enabled pass, those before its body and
those of its body. Passes register their actions whether or not they are enabled. -/
def frameUses (sepDS : Bool) (en : Nat → Bool) (index : Nat → Nat) (body : RunPass → List ViewUse) :
    List Implicit → List RunPass → List ViewUse
  | _, [] => []
  | pend, p :: ps =>
    if en p.id then
      (imageUses sepDS en (index p.id) pend p.images).1 ++ (body p
        ++ frameUses sepDS en index body ((imageUses sepDS en (index p.id) pend p.images).2 ++ registered p) ps)
    else frameUses sepDS en index body (pend ++ registered p) ps

/-- `Lasting` for every enabled pass. -/
def FrameLasting (sepDS : Bool) (en : Nat → Bool) (index : Nat → Nat) : List Implicit → List RunPass → Prop
  | _, [] => True
  | pend, p :: ps =>
    if en p.id then
      Lasting sepDS en (index p.id) pend p.images
        ∧ FrameLasting sepDS en index ((imageUses sepDS en (index p.id) pend p.images).2 ++ registered p) ps
    else FrameLasting sepDS en index (pend ++ registered p) ps

/-- One recording of passes that may use parts and wholes of images and register actions, `body` being what the bodies of the
enabled ones use: the views are ordinary, what attachments declare lasts until the body, and actions don't copy a view to
something it shares. -/
structure SubstitutedRun (sepDS : Bool) (fmt : Nat → Nat) (en : Nat → Bool) (index : Nat → Nat) (passes : List RunPass)
    (body : RunPass → List ViewUse) : Prop where
  plain : ∀ u ∈ frameUses sepDS en index body [] passes, PlainView sepDS fmt u.view ∧ u.layout ≠ Layout.undefined
  lasting : FrameLasting sepDS en index [] passes
  apart : ∀ p ∈ passes, ∀ va ∈ p.implicitActions, ActionApart va.2

end Verif.Run
