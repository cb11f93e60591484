import Verif.C.SrcAct

/-! # Accesses that read and accesses that write -/

namespace Mu.CS.Act

/-- The access changes nothing. -/
def ReadsOnly (f : Heap → C (CVal × Heap)) : Prop := ∀ h v h', f h = .ok (v, h') → h' = h

/-- The access that writes `x` to the cell at `o` of `b`. -/
def writes (b : Base) (o : Int) (x : CVal) : Heap → C (CVal × Heap) := fun h => do
  let h ← h.store (.ptr b o) x
  .ok (x, h)

/-- The access changes nothing or writes a cell of `S`. -/
def Touches (f : Heap → C (CVal × Heap)) (S : Base → Int → Prop) : Prop := ReadsOnly f ∨ ∃ b o x, S b o ∧ f = writes b o x

theorem Touches.mono {f : Heap → C (CVal × Heap)} {S S' : Base → Int → Prop} (t : Touches f S) (h : ∀ b o, S b o → S' b o) : Touches f S' := by
  rcases t with t | ⟨b, o, x, s, e⟩
  · exact .inl t
  · exact .inr ⟨b, o, x, h b o s, e⟩

end Mu.CS.Act
