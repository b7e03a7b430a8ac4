/-
What it means for traffic to carry the right cluster label, independent of the parser.

A labelled byte stream starts with the byte 12, one length byte, and the label.
-/
namespace Verif.Spec

/-- The label header as written on the wire. -/
def labelHeader (label : List UInt8) : List UInt8 :=
  12 :: UInt8.ofNat label.length :: label

/-- `Admits utf8 label skip wire payload`: a node configured with `label` (`none` = unlabelled) admits
`wire` and hands `payload` to the protocol. `utf8` says which byte strings are text. -/
def Admits (utf8 : List UInt8 → Bool) (label : Option (List UInt8)) (skip : Bool)
    (wire payload : List UInt8) : Prop :=
  match label with
  | none => wire = payload ∧ wire ≠ [] ∧ wire.head? ≠ some 12
  | some l =>
    (wire = labelHeader l ++ payload ∧ l.length ≤ 253 ∧ utf8 l = true) ∨
      (skip = true ∧ wire = payload ∧ wire ≠ [] ∧ wire.head? ≠ some 12)

end Verif.Spec
