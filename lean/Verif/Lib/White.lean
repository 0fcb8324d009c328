import Verif.Model.Ignore

/-! White space (specification, and that the model's test is that). -/

namespace SB

/-- The characters with the Unicode property `White_Space`. -/
def Spec.whiteSpace : List Nat := [9, 10, 11, 12, 13, 32, 0x85, 0xA0, 0x1680, 0x2000, 0x2001, 0x2002, 0x2003, 0x2004, 0x2005, 0x2006, 0x2007, 0x2008, 0x2009, 0x200A, 0x2028, 0x2029, 0x202F,
  0x205F, 0x3000]

/-- `c` is white space. -/
def Spec.white (c : Char) : Bool := Spec.whiteSpace.contains c.toNat

theorem isWs_eq : isWs = Spec.white := by
  funext c
  unfold isWs Spec.white Spec.whiteSpace
  generalize c.toNat = n
  rw [Bool.eq_iff_iff]
  simp only [Bool.or_eq_true, Bool.and_eq_true, decide_eq_true_eq, beq_iff_eq, List.contains_eq_mem, List.mem_cons, List.not_mem_nil, or_false]
  omega

end SB
