import Verif.CliSpec

/-!
# Lemmas about the command line
-/

namespace Gr1c

/-- The effect of one option. -/
def Cfg.set (c : Cfg) : Opt → Cfg
  | .help => { c with help := true }
  | .verbose two => { c with verbose := (c.verbose + if two then 2 else 1) % 256 }
  | .logging => { c with logging := true }
  | .synt => { c with run := .syntaxOnly }
  | .ptdump => { c with ptdump := true }
  | .real => { c with run := .realizable }
  | .inter => { c with run := .interactive }
  | .promela => { c with promela := true }
  | .format f => { c with format := f }
  | .init i => { c with init := i }
  | .output a => { c with output := some a }

theorem lastOf_cons {α : Type} (f : Opt → Option α) (d : α) (o : Opt) (os : List Opt) :
    lastOf f d (o :: os) = lastOf f ((f o).getD d) os := by
  unfold lastOf
  cases h : f o with
  | none => simp [List.filterMap_cons, h]
  | some x =>
    simp only [List.filterMap_cons, h, Option.getD_some]
    cases List.filterMap f os <;> simp [List.getLast?_cons]

/-- The meaning of options applied to a configuration. -/
def meaningFrom (c : Cfg) (os : List Opt) (f : Option Arg) : Cfg where
  run := lastOf Opt.run? c.run os
  help := c.help || decide (Opt.help ∈ os)
  ptdump := c.ptdump || decide (Opt.ptdump ∈ os)
  logging := c.logging || decide (Opt.logging ∈ os)
  init := lastOf Opt.init? c.init os
  format := lastOf Opt.format? c.format os
  verbose := (c.verbose + (os.map Opt.loud).sum) % 256
  promela := c.promela || decide (Opt.promela ∈ os)
  output := lastOf Opt.output? c.output os
  input := f

theorem meaningFrom_cons (c : Cfg) (o : Opt) (os : List Opt) (f : Option Arg) :
    meaningFrom c (o :: os) f = meaningFrom (c.set o) os f := by
  unfold meaningFrom
  simp only [lastOf_cons]
  cases o <;> simp [Cfg.set, Opt.run?, Opt.init?, Opt.format?, Opt.output?, Opt.loud] <;> omega

theorem meaning_eq (os : List Opt) (f : Option Arg) : meaning os f = meaningFrom Cfg.default os f := by
  unfold meaning meaningFrom Cfg.default
  simp

theorem set_input (c : Cfg) (o : Opt) : (c.set o).input = c.input := by cases o <;> rfl

theorem set_verbose (c : Cfg) (o : Opt) (h : c.verbose < 256) : (c.set o).verbose < 256 := by
  cases o <;> simp [Cfg.set, h] <;> omega

end Gr1c
