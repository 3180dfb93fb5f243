import Verif.Spec.Grammar
/-!
# The heads of control structures (for C60)
-/
namespace Pico

/-- What stands before the body of an `if`, `while`, `switch`, `for` or `foreach`. A body between braces follows, or, in the other notation of the
language, a colon, statements, and `endif`, `endwhile`, `endswitch`, `endfor` or `endforeach`. -/
inductive Head : List Token → Prop
  | cond (kw : Kw) (hk : kw = .If ∨ kw = .While ∨ kw = .Switch) {s : Nat} {cs : List Token} {c : Expr} (h : Derives (.expr 0 s) cs c) :
      Head (.k kw :: .k .ParenthesesOpen :: (cs ++ [.k .ParenthesesClose]))
  | for {is cs ls : List Token} {i c l : Option Expr} (hi : Derives .opt is i) (hc : Derives .opt cs c) (hl : Derives .opt ls l) :
      Head (.k .For :: .k .ParenthesesOpen :: (is ++ .k .SemiColon :: (cs ++ .k .SemiColon :: (ls ++ [.k .ParenthesesClose]))))
  | foreach {s : Nat} {cs vs : List Token} {c v : Expr} (h : Derives (.expr 0 s) cs c) (hv : Derives .fvar vs v) :
      Head (.k .Foreach :: .k .ParenthesesOpen :: (cs ++ .k .As :: (vs ++ [.k .ParenthesesClose])))
  | foreachKey {s : Nat} {cs ks vs : List Token} {c kv v : Expr} (h : Derives (.expr 0 s) cs c) (hk : Derives .fvar ks kv) (hv : Derives .fvar vs v) :
      Head (.k .Foreach :: .k .ParenthesesOpen :: (cs ++ .k .As :: (ks ++ .k .DoubleArrow :: (vs ++ [.k .ParenthesesClose]))))

end Pico
