import Lean.Meta.Tactic.Simp.RegisterCommand

/-! The simp set `py` for running Python programs symbolically. -/

/-- Rules that run Python programs. -/
register_simp_attr py
