import Verif.Leximited.Props
import Verif.Strto64.Props
import Verif.Types.Props
import Verif.Mangle.Props
import Verif.Member.Props
import Verif.Strings.Props
import Verif.Walker.Props
import Verif.Layout.Props
import Verif.ElemType.Props
import Verif.Registry.Props
import Verif.Util.Props
import Verif.Keys.Props
import Verif.Token.Props
import Verif.Control.Props
import Verif.CallStack.Props
import Verif.Packed.Props
import Verif.Window.Props
import Verif.Source.Props
import Verif.Lexer.Props
import Verif.Lexer.Comments
import Verif.Parser.Props
import Verif.Preparse.Props
import Verif.RefRet.Props
import Verif.Virtual.Props
import Verif.Overload.NoteProps
import Verif.TypeTable.Props
import Verif.UMod.Props
import Verif.ValText.Props
import Verif.ByteStream.Props
import Verif.Chance.Props
import Verif.ClassCast.Props
import Verif.ClassInfo.Props
import Verif.ClassIter.Props
import Verif.CustomArray.Props
import Verif.GenPos.Props
import Verif.VtGen.Props
import Verif.Stdlib.Props
import Verif.EvalCopy.Props
import Verif.Fold.Props
import Verif.Default.Props
import Verif.Dm.Props
import Verif.Returns.Props
import Verif.Scope.Props
import Verif.Select.Props
import Verif.Cast.Props
import Verif.Oper.Props
import Verif.Order.Props
import Verif.Subscript.Props
import Verif.Arith.Assign
import Verif.Proxy.Props
import Verif.Related.Pointers
import Verif.Driver.Props
import Verif.Sizing.Props
import Verif.Dispatch.Props
import Verif.Constness.Props
import Verif.ConstRead.Props
import Verif.Frame.Props
import Verif.FuncTable.Props
import Verif.Consts.Props
import Verif.Templ.Props
import Verif.Merge.Props
import Verif.StmtParse.Props
import Verif.Storage.Props
import Verif.Inherit.Props
import Verif.Decl.Props
import Verif.BaseCopy.Props
import Verif.Immed.Props
import Verif.AsRef.Props
import Verif.SelfCopy.Props
import Verif.VarInit.Props
import Verif.ConstSlot.Props
import Verif.RefInit.Props
import Verif.CastPos.Props
import Verif.InitParse.Props
import Verif.CallParse.Props
import Verif.RefRec.Props
import Verif.AbsAssign.Props
import Verif.EvalStmt.Props
import Verif.EvalCtl.Props
import Verif.SlotArray.Props
import Verif.SymTab.Props
import Verif.UtiMap.Props
import Verif.Kin.Props
import Verif.PackKin.Props
