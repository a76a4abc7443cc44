import Verif.SymTab.Model
/-! # Tables of symbols (specification) -/
namespace Ulam.SymTab

/-- Each symbol is kept under its own id, hence under no other, and has been made. -/
def Keyed (s : ST) : Prop := ∀ k p, find s.tab k = some p → s.ids p = k ∧ p < s.next

end Ulam.SymTab
