import Verif.Serial.Model

/-! Predicates used to state the serialization properties. -/
namespace Verif.Serial

/-- Types without sets and maps: the only ones with a unique representation. -/
def Ordered : Ty → Prop
  | .unit | .int _ | .bool | .arr _ | .buf => True
  | .opt t => Ordered t
  | .pair a b => Ordered a ∧ Ordered b
  | .fields a b => Ordered a ∧ Ordered b
  | .vec t => Ordered t
  | .uset _ | .umap _ _ | .oset _ => False
  | .variant n alt => n < 255 ∧ ∀ i, Ordered (alt i)

/-- Types whose values always occupy at least one byte. -/
def Sized : Ty → Prop
  | .unit => False
  | .int w => 0 < w
  | .arr n => 0 < n
  | .bool | .buf | .opt _ | .vec _ | .uset _ | .umap _ _ | .oset _ | .variant _ _ => True
  | .pair a b => Sized a ∨ Sized b
  | .fields a b => Sized a ∨ Sized b

/-- Types in which no byte is ever interpreted as a `bool`, as a variant index
or as the size of a `buffer`. -/
def Plain : Ty → Prop
  | .unit | .int _ | .arr _ => True
  | .bool | .buf | .opt _ | .variant _ _ => False
  | .pair a b => Plain a ∧ Plain b
  | .fields a b => Plain a ∧ Plain b
  | .vec t => Plain t
  | .uset t => Plain t ∧ Sized t
  | .umap k v => Plain k ∧ Plain v ∧ (Sized k ∨ Sized v)
  | .oset t => Plain t

end Verif.Serial
