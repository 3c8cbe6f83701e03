import Mathlib.Algebra.Order.Floor.Defs
import Mathlib.Data.Rat.Floor

/-!
# Inserting an image into a video

The sizes and the place of the image in the frame; the pixels are those of Pillow. The divisions are exact.
-/

namespace Verif
namespace Pad

/-- Python's `round`: to the nearest integer, in the middle to the even one -/
def pyround (q : Rat) : Int :=
  let n := ⌊q⌋
  if q - n < 1 / 2 then n
  else if 1 / 2 < q - n then n + 1
  else if n % 2 = 0 then n else n + 1

/-- `resize_width`, `resize_height` (salabim.py:25454-25463) -/
def resized (w h tw th : Nat) : Int × Int :=
  let targetRatio : Rat := th / tw
  let imRatio : Rat := h / w
  if targetRatio > imRatio then ((tw : Int), pyround (tw * imRatio))
  else (pyround (th / imRatio), (th : Int))

/-- the size of the image in the frame, and the place of its upper left corner: `resize_with_pad` (salabim.py:25452-25469). None: `resize` raises ValueError, as Pillow doesn't make empty images. -/
def place (w h tw th : Nat) : Option ((Int × Int) × (Int × Int)) :=
  if h = th ∧ w = tw then some ((w, h), (0, 0))
  else
    let r := resized w h tw th
    if r.1 ≤ 0 ∨ r.2 ≤ 0 then none
    else some (r, (pyround (((tw - r.1 : Int) : Rat) / 2), pyround (((th - r.2 : Int) : Rat) / 2)))

end Pad
end Verif
