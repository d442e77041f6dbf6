#!/usr/bin/env python3
"""Checks that the syntax trees that Lean read are those of the project.

1. The text between the quotes of every lean/Verif/Py/Source/*.lean is, character by character, the file of the project.
2. The tree made by Verif/Py/Parser.lean from that text is the tree made by Python's own `ast` module (both printed as s-expressions; docstrings, annotations and imports are left out).

Nothing of the project is executed. Usage: tools/check_source.py [path of the project], after `lake build` in lean/.
"""
import ast, os, subprocess, sys, tempfile
from decimal import Decimal

HERE = os.path.dirname(os.path.abspath(__file__))
LEAN = os.path.join(HERE, "..", "lean")
REPO = sys.argv[1] if len(sys.argv) > 1 else "/repo"
SRC=[("EllConfig","ell_config.py"),("EllCalcCore","ell_calc_core.py"),("EllCalc","ell_calc.py"),("Ell","ell.py"),("EllStable","ell_stable.py"),("CuttingPlane","cutting_plane.py"),("ConjugateGradient","conjugate_gradient.py"),("LdltMgr","oracles/ldlt_mgr.py"),("LmiOracle","oracles/lmi_oracle.py"),("Lmi0Oracle","oracles/lmi0_oracle.py"),("LmiOldOracle","oracles/lmi_old_oracle.py"),("ProfitOracle","oracles/profit_oracle.py"),("LowpassOracle","oracles/lowpass_oracle.py"),("SpectralFact","oracles/spectral_fact.py"),("Skeleton","skeleton.py"),("Ell1dTpy","ell1d.tpy"),("PowerIteration","../../experiment/power_iteration.py")]
PRINTER = r'''import Verif.Py.Source.ConjugateGradient
import Verif.Py.Source.CuttingPlane
import Verif.Py.Source.Ell
import Verif.Py.Source.EllCalc
import Verif.Py.Source.EllCalcCore
import Verif.Py.Source.EllConfig
import Verif.Py.Source.EllStable
import Verif.Py.Source.LdltMgr
import Verif.Py.Source.Lmi0Oracle
import Verif.Py.Source.LmiOldOracle
import Verif.Py.Source.LmiOracle
import Verif.Py.Source.ProfitOracle
import Verif.Py.Source.LowpassOracle
import Verif.Py.Source.SpectralFact
import Verif.Py.Source.Skeleton
import Verif.Py.Source.Ell1dTpy
import Verif.Py.Source.PowerIteration
namespace Ellalgo.Py
def bo : BinOp → String | .add=>"+"|.sub=>"-"|.mul=>"*"|.div=>"/"|.pow=>"**"|.matmul=>"@"
def co : CmpOp → String | .lt=>"<"|.le=>"<="|.gt=>">"|.ge=>">="|.eq=>"=="|.ne=>"!="|.is=>"is"|.isNot=>"isnot"
mutual
partial def sE : PExpr → String
 | .none => "None" | .bool b => if b then "True" else "False" | .int n => s!"(int {n})" | .dec m e b => s!"(dec {if b then (m*10^e : Nat) else m} {if b then 0 else e})"
 | .imag m e b => s!"(imag {if b then (m*10^e : Nat) else m} {if b then 0 else e})"
 | .str _ => "(str)" | .name x => x | .attr e a => s!"(. {sE e} {a})" | .bin o l r => s!"({bo o} {sE l} {sE r})" | .neg e => s!"(neg {sE e})" | .not e => s!"(not {sE e})"
 | .cmp o l r => s!"({co o} {sE l} {sE r})" | .and l r => s!"(and {sE l} {sE r})" | .or l r => s!"(or {sE l} {sE r})" | .ite c t e => s!"(ite {sE c} {sE t} {sE e})"
 | .tuple es => s!"(tuple{sEs es})" | .list es => s!"(list{sEs es})" | .call f as => s!"(call {sE f}{sEs as})" | .index e is => s!"(index {sE e}{sEs is})"
 | .slice a b => s!"(slice {sE a} {sE b})" | .lam xs e => s!"(lam {xs} {sE e})" | .comp e xs it => s!"(comp {sE e} {xs} {sE it})"
partial def sEs (es : List PExpr) : String := String.join (es.map fun e => " " ++ sE e)
end
mutual
partial def sS : PStmt → String
 | .assign t e => s!"(= {sE t} {sE e})" | .aug o t e => s!"({bo o}= {sE t} {sE e})" | .expr e => s!"(expr {sE e})" | .ite c t e => s!"(if {sE c} [{sSs t}] [{sSs e}])"
 | .for_ t i b => s!"(for {sE t} {sE i} [{sSs b}])" | .ret e => s!"(ret {sE e})" | .assert e => s!"(assert {sE e})" | .raise e => s!"(raise {sE e})" | .brk => "brk" | .cont => "cont" | .pass => "pass"
 | .fn x xs b => s!"(fn {x} {xs} [{sSs b}])" | .try_ b hs => s!"(try [{sSs b}] [{sSs hs}])" | .except ns b => s!"(except {ns} [{sSs b}])"
partial def sSs (ss : List PStmt) : String := " ".intercalate (ss.map sS)
end
def sF (f : PFun) : String := s!"(def {f.name} {f.params} ({sEs f.defaults}) {f.isProperty} [{sSs f.body}])\n"
def sC (c : PClass) : String := s!"(class {c.name} {c.attrs.map fun a => a.1 ++ "=" ++ sE a.2}\n" ++ String.join (c.methods.map sF) ++ ")\n"
def sM (m : PModule) : String := String.join (m.funs.map sF) ++ String.join (m.classes.map sC)
open Source
def all : List (String × PModule) := [("ConjugateGradient",ConjugateGradient),("CuttingPlane",CuttingPlane),("Ell",Ell),("EllCalc",EllCalc),("EllCalcCore",EllCalcCore),("EllConfig",EllConfig),("EllStable",EllStable),("LdltMgr",LdltMgr),("Lmi0Oracle",Lmi0Oracle),("LmiOldOracle",LmiOldOracle),("LmiOracle",LmiOracle),("ProfitOracle",ProfitOracle),("LowpassOracle",LowpassOracle),("SpectralFact",SpectralFact),("Skeleton",Skeleton),("Ell1dTpy",Ell1dTpy),("PowerIteration",PowerIteration)]
#eval do for (n, m) in all do IO.FS.writeFile ("@OUT@/" ++ n ++ ".txt") (sM m)
end Ellalgo.Py
'''

B={ast.Add:"+",ast.Sub:"-",ast.Mult:"*",ast.Div:"/",ast.Pow:"**",ast.MatMult:"@"}
C={ast.Lt:"<",ast.LtE:"<=",ast.Gt:">",ast.GtE:">=",ast.Eq:"==",ast.NotEq:"!=",ast.Is:"is",ast.IsNot:"isnot"}
def L(xs): return "["+", ".join(xs)+"]"
hoist=[]
def E(e):
    t=type(e)
    if t is ast.Constant:
        v=e.value
        if v is None: return "None"
        if v is True: return "True"
        if v is False: return "False"
        if t and isinstance(v,int): return f"(int {v})"
        if isinstance(v,float):
            seg=ast.get_source_segment(TXT,e); d=Decimal(seg); s,dig,ex=d.as_tuple(); m=int("".join(map(str,dig)))
            return f"(dec {m*10**ex} 0)" if ex>=0 else f"(dec {m} {-ex})"
        if isinstance(v,complex):
            d=Decimal(ast.get_source_segment(TXT,e)[:-1]); s,dig,ex=d.as_tuple(); m=int("".join(map(str,dig)))
            return f"(imag {m*10**ex} 0)" if ex>=0 else f"(imag {m} {-ex})"
        if isinstance(v,str): return "(str)"
    if t is ast.JoinedStr: return "(str)"
    if t is ast.Name: return e.id
    if t is ast.Attribute: return f"(. {E(e.value)} {e.attr})"
    if t is ast.BinOp: return f"({B[type(e.op)]} {E(e.left)} {E(e.right)})"
    if t is ast.UnaryOp:
        return {ast.USub:"(neg %s)",ast.Not:"(not %s)",ast.UAdd:"%s"}[type(e.op)]%E(e.operand)
    if t is ast.Compare:
        assert len(e.ops)==1
        return f"({C[type(e.ops[0])]} {E(e.left)} {E(e.comparators[0])})"
    if t is ast.BoolOp:
        o="and" if isinstance(e.op,ast.And) else "or"
        r=E(e.values[0])
        for x in e.values[1:]: r=f"({o} {r} {E(x)})"
        return r
    if t is ast.IfExp: return f"(ite {E(e.test)} {E(e.body)} {E(e.orelse)})"
    if t is ast.Tuple: return "(tuple"+Es(e.elts)+")"
    if t is ast.List: return "(list"+Es(e.elts)+")"
    if t is ast.Call:
        if e.keywords:
            if not (isinstance(e.func,ast.Attribute) and E(e.func.value)=="np"):
                return f"(call (. np ?{''.join(' '+k.arg+'=' for k in e.keywords)}){Es(e.args)}{Es([k.value for k in e.keywords])})"
            return f"(call (. np {e.func.attr}{''.join(' '+k.arg+'=' for k in e.keywords)}){Es(e.args)}{Es([k.value for k in e.keywords])})"
        return f"(call {E(e.func)}{Es(e.args)})"
    if t is ast.Subscript:
        s=e.slice
        xs=s.elts if isinstance(s,ast.Tuple) else [s]
        return f"(index {E(e.value)}{Es(xs)})"
    if t is ast.Slice and e.step: return f"(call slice {E(e.lower) if e.lower else 'None'} {E(e.upper) if e.upper else 'None'} {E(e.step)})"
    if t is ast.Slice: return f"(slice {E(e.lower) if e.lower else 'None'} {E(e.upper) if e.upper else 'None'})"
    if t is ast.Lambda: return f"(lam {L([a.arg for a in e.args.args])} {E(e.body)})"
    if t in (ast.ListComp,ast.GeneratorExp):
        g,=e.generators; assert not g.ifs
        xs=[x.id for x in g.target.elts] if isinstance(g.target,ast.Tuple) else [g.target.id]
        return f"(comp {E(e.elt)} {L(xs)} {E(g.iter)})"
    if t is ast.NamedExpr:
        hoist.append(f"(= {E(e.target)} {E(e.value)})"); return E(e.target)
    raise Exception(ast.dump(e))
def Es(es): return "".join(" "+E(x) for x in es)
def S(s):
    t=type(s)
    if t is ast.Assign: a,=s.targets; return [f"(= {E(a)} {E(s.value)})"]
    if t is ast.AnnAssign: return [f"(= {E(s.target)} {E(s.value)})"] if s.value else []
    if t is ast.AugAssign: return [f"({B[type(s.op)]}= {E(s.target)} {E(s.value)})"]
    if t is ast.Expr:
        if isinstance(s.value,ast.Constant) and isinstance(s.value.value,str): return []
        return [f"(expr {E(s.value)})"]
    if t is ast.If:
        assert not hoist
        c=E(s.test); h=hoist[:]; hoist.clear()
        return h+[f"(if {c} [{Ss(s.body)}] [{Ss(s.orelse)}])"]
    if t is ast.For: assert not s.orelse; return [f"(for {E(s.target)} {E(s.iter)} [{Ss(s.body)}])"]
    if t is ast.Return: return [f"(ret {E(s.value) if s.value else 'None'})"]
    if t is ast.Assert: return [f"(assert {E(s.test)})"]
    if t is ast.Raise: return [f"(raise {E(s.exc)})"]
    if t is ast.Break: return ["brk"]
    if t is ast.Continue: return ["cont"]
    if t is ast.Pass: return ["pass"]
    if t is ast.Try:
        assert not s.orelse and not s.finalbody
        hs=[f"(except {L([ast.unparse(x) for x in (h.type.elts if isinstance(h.type,ast.Tuple) else [h.type])])} [{Ss(h.body)}])" for h in s.handlers]
        return [f"(try [{Ss(s.body)}] [{' '.join(hs)}])"]
    if t is ast.FunctionDef: return [f"(fn {s.name} {L([a.arg for a in s.args.args])} [{Ss(s.body)}])"]
    raise Exception(ast.dump(s))
def Ss(ss): return " ".join(x for s in ss for x in S(s))
def F(f): return f"(def {f.name} {L([a.arg for a in f.args.args])} ({Es(f.args.defaults)}) {'true' if any(isinstance(d,ast.Name) and d.id=='property' for d in f.decorator_list) else 'false'} [{Ss(f.body)}])\n"
def K(c):
    at=[]; ms=""
    for s in c.body:
        if isinstance(s,ast.FunctionDef): ms+=F(s)
        elif isinstance(s,ast.Assign): at.append(s.targets[0].id+"="+E(s.value))
        elif isinstance(s,ast.AnnAssign) and s.value: at.append(s.target.id+"="+E(s.value))
    return f"(class {c.name} {L(at)}\n"+ms+")\n"

def main():
    bad = 0
    with tempfile.TemporaryDirectory() as out:
        name = os.path.join(out, "Printer.lean")
        with open(name, "w") as h:
            h.write(PRINTER.replace("@OUT@", out))
        subprocess.run(["lake", "env", "lean", name], cwd=LEAN, check=True)
        global TXT
        for n, f in SRC:
            TXT = open(os.path.join(REPO, "src/ellalgo", f)).read()
            quoted = open(os.path.join(LEAN, "Verif/Py/Source", n + ".lean")).read()
            text = 'r#"' + TXT + '"#' in quoted
            m = ast.parse(TXT)
            r = "".join(F(s) for s in m.body if isinstance(s, ast.FunctionDef)) + "".join(K(s) for s in m.body if isinstance(s, ast.ClassDef))
            tree = r == open(os.path.join(out, n + ".txt")).read()
            print(f"{f}: text {'equal' if text else 'DIFFERENT'}, tree {'equal' if tree else 'DIFFERENT'}")
            bad += not (text and tree)
    return bad


if __name__ == "__main__":
    sys.exit(main())
