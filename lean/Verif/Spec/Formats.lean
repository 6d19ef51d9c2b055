/-!
Aspects of formats, after the Vulkan specification.
-/
namespace Verif

/-- Aspects of a format (Vulkan specification, "Formats"): 124-126 have depth, 127 stencil, 128-130 both, all the others
colour. Bit 1 is colour, 2 depth, 4 stencil. -/
def aspects (format : Nat) : Nat :=
  match format with
  | 124 | 125 | 126 => 2
  | 127 => 4
  | 128 | 129 | 130 => 6
  | _ => 1

end Verif
