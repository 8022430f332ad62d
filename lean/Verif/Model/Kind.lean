import Verif.Model.Data
/-
The remaining predicates, getters and constructors of values and images (src/atom/data.rs:165-363,
src/types.rs:376-424).
-/
namespace Mp4

/-- `Data::is_reserved` (src/atom/data.rs:166-168). -/
def Data.isReserved : Data → Bool | .reserved _ => true | _ => false
/-- `Data::is_utf8` (src/atom/data.rs:171-173). -/
def Data.isUtf8 : Data → Bool | .utf8 _ => true | _ => false
/-- `Data::is_utf16` (src/atom/data.rs:176-178). -/
def Data.isUtf16 : Data → Bool | .utf16 _ => true | _ => false
/-- `Data::is_jpeg` (src/atom/data.rs:181-183). -/
def Data.isJpeg : Data → Bool | .jpeg _ => true | _ => false
/-- `Data::is_png` (src/atom/data.rs:186-188). -/
def Data.isPng : Data → Bool | .png _ => true | _ => false
/-- `Data::is_be_signed` (src/atom/data.rs:191-193). -/
def Data.isBeSigned : Data → Bool | .beSigned _ => true | _ => false
/-- `Data::is_bmp` (src/atom/data.rs:196-198). -/
def Data.isBmp : Data → Bool | .bmp _ => true | _ => false

/-- `Data::image_data` / `into_image_data` (src/atom/data.rs:293-295, 305-307). -/
def Data.imageData? (d : Data) : Option Bytes := d.image?.map (·.data)
/-- Mutation through `Data::image_data_mut` (src/atom/data.rs:299-301). -/
def Data.modImageData (f : Bytes → Bytes) (d : Data) : Data := d.modImage f

/-- `Data::reserved` (src/atom/data.rs:310-315). -/
def Data.reserved? : Data → Option Bytes | .reserved v => some v | _ => none
/-- `Data::utf8` (src/atom/data.rs:318-323). -/
def Data.utf8? : Data → Option Str | .utf8 s => some s | _ => none
/-- `Data::utf16` (src/atom/data.rs:326-331). -/
def Data.utf16? : Data → Option Str | .utf16 s => some s | _ => none
/-- `Data::jpeg` (src/atom/data.rs:334-339). -/
def Data.jpeg? : Data → Option Bytes | .jpeg v => some v | _ => none
/-- `Data::png` (src/atom/data.rs:342-347). -/
def Data.png? : Data → Option Bytes | .png v => some v | _ => none
/-- `Data::be_signed` (src/atom/data.rs:350-355). -/
def Data.beSigned? : Data → Option Bytes | .beSigned v => some v | _ => none
/-- `Data::bmp` (src/atom/data.rs:358-363). -/
def Data.bmp? : Data → Option Bytes | .bmp v => some v | _ => none

/-- `Img::bmp`, `Img::jpeg`, `Img::png` (src/types.rs:383-395). -/
def Img.ofBmp (v : Bytes) : Img := ⟨.bmp, v⟩
def Img.ofJpeg (v : Bytes) : Img := ⟨.jpeg, v⟩
def Img.ofPng (v : Bytes) : Img := ⟨.png, v⟩

/-- `ImgFmt::is_bmp`, `is_jpeg`, `is_png` (src/types.rs:411-423). -/
def ImgFmt.isBmp : ImgFmt → Bool | .bmp => true | _ => false
def ImgFmt.isJpeg : ImgFmt → Bool | .jpeg => true | _ => false
def ImgFmt.isPng : ImgFmt → Bool | .png => true | _ => false

end Mp4
