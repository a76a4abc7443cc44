import Verif.InitParse.Model
/-!
# How initialization lists are written

An initialization list is `{ }`, or values with commas between them and perhaps one behind the last, in curly brackets. For an array the
values are expressions or lists for a class; for a class they are `.name = value` where the value is an expression or a list.
-/
namespace Ulam.InitParse.Spec
open Ulam.InitParse

/-- What may stand between the last value and the closing bracket. -/
def IsEnd (w : List Tok) : Prop := w = [] ∨ w = [.comma]

mutual
/-- The tokens behind the opening bracket of a list, the closing one included. -/
inductive Writes : Val → List Tok → Prop
  | empty : Writes .empty [.cc]
  | arr {l w} : Many l w → Writes (.arr l) w
  | cls {m w} : Members m w → Writes (.cls m) w
/-- One item at least, then the bracket. -/
inductive Many : Items → List Tok → Prop
  | lastEx {e t} : IsEnd t → Many (.ex e .nil) (.ex e :: (t ++ [.cc]))
  | moreEx {e l w} : Many l w → Many (.ex e l) (.ex e :: .comma :: w)
  | lastNone {t} : IsEnd t → Many (.cls .nil .nil) (.oc :: .cc :: (t ++ [.cc]))
  | moreNone {l w} : Many l w → Many (.cls .nil l) (.oc :: .cc :: .comma :: w)
  | lastCls {m v t} : Members m v → IsEnd t → Many (.cls m .nil) (.oc :: (v ++ (t ++ [.cc])))
  | moreCls {m v l w} : Members m v → Many l w → Many (.cls m l) (.oc :: (v ++ .comma :: w))
/-- One member at least, then the bracket. -/
inductive Members : Mems → List Tok → Prop
  | last {n v u t} : Value v u → IsEnd t → Members (.cons n v .nil) (.dot :: .ex (.name n) :: .eq :: (u ++ (t ++ [.cc])))
  | more {n v u l w} : Value v u → Members l w → Members (.cons n v l) (.dot :: .ex (.name n) :: .eq :: (u ++ .comma :: w))
/-- An expression, or a list with its opening bracket. -/
inductive Value : Val → List Tok → Prop
  | ex {e} : Value (.ex e) [.ex e]
  | list {v w} : Writes v w → Value v (.oc :: w)
end

end Ulam.InitParse.Spec
