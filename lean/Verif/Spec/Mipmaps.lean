import Verif.Model.Mipmaps
import Verif.Spec.Gpu
/-
What a user expects of mipmap generation, in terms of recorded commands and of the layouts on the GPU.
-/
namespace Verif.Mip
open Verif.Rec Verif.Gpu

/-- Width, height or depth of a level (Vulkan, "Image Miplevel Sizing"). -/
def levelSize (extent level : Nat) : Nat := if extent / 2 ^ level = 0 then 1 else extent / 2 ^ level

/-- The blit that makes level `l + 1` of a layer from level `l`, whole to whole, with linear filtering. -/
def downscale (img : Image) (layer l : Nat) : Cmd :=
  .blitImage img.id Layout.transferSrc ⟨aspects img.format, l, 1, layer, 1⟩
    ⟨0, 0, 0, levelSize img.width l, levelSize img.height l, levelSize img.depth l⟩
    img.id Layout.transferDst ⟨aspects img.format, l + 1, 1, layer, 1⟩
    ⟨0, 0, 0, levelSize img.width (l + 1), levelSize img.height (l + 1), levelSize img.depth (l + 1)⟩ 1

/-- The commands that are not barriers. -/
def work (cs : List Cmd) : List Cmd := cs.filter fun | .imageBarrier .. => false | _ => true

/-- Every layer of the view, every level after the first, in order. -/
def expectedWork (img : Image) (baseLayer layers : Nat) : List Cmd :=
  (List.range' baseLayer layers).flatMap fun layer => (List.range (img.mipLevels - 1)).map (downscale img layer)

end Verif.Mip
