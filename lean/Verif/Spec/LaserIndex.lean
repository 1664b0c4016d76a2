import Verif.Model.Bytes

/-! The LASER index file as a reader expects it. -/
namespace Alaya.Spec
open Alaya

/-- A field of `w` bytes. -/
def pad (w : Nat) (d : Bytes) : Bytes := d ++ List.replicate (w - d.length) 0

/-- A node: vector, codes, three factors for each of the `R` edges, ids. -/
def nodeImage (R codesLen : Nat) (vector codes triple dq vq : Bytes) (ids : List Nat) : Bytes :=
  vector ++ (pad codesLen codes ++ (pad (4 * R) triple ++ (pad (4 * R) dq ++ (pad (4 * R) vq ++ pad (4 * R) (ids.flatMap (leBytes 4))))))

/-- A page: its nodes one after the other, zeros after them. -/
def pageImage (n perPage pageSize : Nat) (img : Nat → Bytes) (p : Nat) : Bytes :=
  pad pageSize ((List.range (min perPage (n - p * perPage))).flatMap (fun j => img (p * perPage + j)))

/-- The file: a sector with the metadata, then the pages. -/
def indexImage (n perPage pageSize : Nat) (metas : List Nat) (img : Nat → Bytes) : Bytes :=
  pad 4096 (metas.flatMap (leBytes 8)) ++ (List.range ((n + perPage - 1) / perPage)).flatMap (pageImage n perPage pageSize img)

end Alaya.Spec
