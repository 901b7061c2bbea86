#!/usr/bin/env python3
"""Generate lean/Verif/Model/Options.lean and lean/Verif/Props/Options.lean (source files, committed)."""
import os
root = os.path.dirname(os.path.dirname(os.path.abspath(__file__)))
Q = lambda s: f'GoFloat.ofRat ({s})'
common_def = {
 'batchSize': ('Int', '10000'), 'dim': ('Int', '10'), 'docInMemory': ('Bool', 'false'), 'goroutines': ('Int', 'ncpu'),
 'initlr': ('F', Q('25 / 1000')), 'iter': ('Int', '15'), 'logBatch': ('Int', '100000'), 'maxCount': ('Int', '-1'),
 'minCount': ('Int', '5'), 'subsampleThreshold': ('F', Q('1 / 1000')), 'toLower': ('Bool', 'false'),
 'verbose': ('Bool', 'false'), 'window': ('Int', '5'),
 'maxDepth': ('Int', '100'), 'minLR': ('F', Q('25 / 1000') + ' *. ' + Q('1 / 10000')), 'modelType': ('Word', '"cbow".toList'),
 'negativeSampleSize': ('Int', '5'), 'optimizerType': ('Word', '"ns".toList'), 'updateLRBatch': ('Int', '100000'),
 'alpha': ('F', Q('3 / 4')), 'countType': ('Word', '"inc".toList'), 'solverType': ('Word', '"sgd".toList'), 'xmax': ('Int', '100'),
 'relationType': ('Word', '"ppmi".toList'), 'smooth': ('F', Q('3 / 4')),
}
# field: (line in var block, struct, DefaultOptions), flag name, order in LoadForCmd, and SDK option lines (None: no option)
models = {
 'W2V': dict(pkg='word2vec', dvar='38-58', struct='60-80', dflt='82-104', load='106-126',
   order='batchSize dim goroutines docInMemory initlr iter logBatch maxCount maxDepth minCount minLR modelType negativeSampleSize optimizerType subsampleThreshold toLower updateLRBatch verbose window'.split(),
   fields='batchSize dim docInMemory goroutines initlr iter logBatch maxCount maxDepth minCount minLR modelType negativeSampleSize optimizerType subsampleThreshold toLower updateLRBatch verbose window'.split(),
   noopt=[], newl='word2vec.go:53-60'),
 'Glove': dict(pkg='glove', dvar='30-48', struct='50-68', dflt='70-90', load='92-110',
   order='alpha batchSize countType dim goroutines docInMemory initlr iter logBatch maxCount minCount solverType subsampleThreshold toLower verbose window xmax'.split(),
   fields='alpha batchSize countType dim docInMemory goroutines initlr iter logBatch maxCount minCount solverType subsampleThreshold toLower verbose window xmax'.split(),
   noopt=['countType', 'logBatch'], newl='glove.go:49-56'),
 'Lexvec': dict(pkg='lexvec', dvar='0', struct='0', dflt='0', load='0',
   order='batchSize dim goroutines docInMemory initlr iter logBatch maxCount minCount minLR negativeSampleSize relationType smooth subsampleThreshold toLower updateLRBatch verbose window'.split(),
   fields='batchSize dim docInMemory goroutines initlr iter logBatch maxCount minCount minLR negativeSampleSize relationType smooth subsampleThreshold toLower updateLRBatch verbose window'.split(),
   noopt=[], newl='lexvec.go:52-59'),
}
import re, subprocess
def find(pkg, pat, file='options.go'):
    out = []
    for n, l in enumerate(open(f'/repo/pkg/model/{pkg}/{file}'), 1):
        if re.search(pat, l): out.append(n)
    return out
m = ['import Verif.Go.Float', 'import Verif.Go.Text', '',
 '/-! # Options of the three models: `pkg/model/{word2vec,glove,lexvec}/options.go` and `New`',
 '', 'Written by `tools/gen_options.py`. An option is a constructor of the `...Opt` type with the value it sets;',
 'Boolean options take no value and set `true`; `apply` is the function stored in the `ModelOption`. `F` is float64. -/', '', 'namespace Wego', 'variable {F : Type}', '']
p = ['import Verif.Model.Options', '', '/-! # C66: options (written by `tools/gen_options.py`) -/', '', 'namespace Wego.Props', 'open Wego', 'variable {F : Type}', '',
'''theorem last_set {σ o α : Type} (apply : o → σ → σ) (f : σ → α) (sel : o → Option α)
    (h : ∀ x s, f (apply x s) = (sel x).getD (f s)) (l : List o) (s : σ) :
    f (l.foldl (fun s x => apply x s) s) = ((l.filterMap sel).getLast?).getD (f s) := by
  induction l generalizing s with
  | nil => rfl
  | cons x l ih =>
    rw [List.foldl_cons, ih, h]
    cases hx : sel x with
    | none => rw [List.filterMap_cons_none hx]; rfl
    | some v =>
      rw [List.filterMap_cons_some hx, List.getLast?_cons]
      simp
''']
fn = {'docInMemory': 'DocInMemory'}
for M, d in models.items():
    pkg = d['pkg']
    g = lambda pat: find(pkg, pat)[0]
    struct = f"{g(r'^type Options struct')}"
    dflt = g(r'^func DefaultOptions'); load = g(r'^func LoadForCmd'); dv = g(r'^\tdefaultBatchSize')
    m.append(f'/-- `{pkg}/options.go:{struct}` `Options` -/')
    m.append(f'structure {M}Options (F : Type) where')
    for f in d['fields']: m.append(f'  {f} : {common_def[f][0]}')
    m += ['', f'/-- `{pkg}/options.go:{dflt}` `DefaultOptions` (values from the `default...` variables, line {dv} on; `ncpu` is', '`runtime.NumCPU()`) -/',
          f'def {M}Options.default [GoFloat F] (ncpu : Int) : {M}Options F where']
    for f in d['fields']: m.append(f'  {f} := {common_def[f][1]}')
    m += ['', f'/-- `{pkg}/options.go:{load}` `LoadForCmd`: registering each flag stores its default in the field -/',
          f'def {M}Options.loadForCmd [GoFloat F] (ncpu : Int) (o : {M}Options F) : {M}Options F :=']
    for f in d['order']: m.append(f'  let o := {{ o with {f} := {common_def[f][1]} }}')
    m.append('  o')
    opts = [f for f in d['fields'] if f not in d['noopt']]
    m += ['', f'/-- the functional options of `{pkg}/options.go:{g("^type ModelOption")}` on -/', f'inductive {M}Opt (F : Type) where']
    for f in opts:
        t = common_def[f][0]
        m.append(f'  | {f}' + ('' if t == 'Bool' else f' (v : {t})'))
    m += ['', f'/-- the body of each option, `{pkg}/options.go:{g("^type ModelOption")}` on -/', f'def {M}Opt.apply (x : {M}Opt F) (o : {M}Options F) : {M}Options F :=', '  match x with']
    for f in opts:
        if common_def[f][0] == 'Bool': m.append(f'  | .{f} => {{ o with {f} := true }}')
        else: m.append(f'  | .{f} v => {{ o with {f} := v }}')
    m += ['', f'/-- `{d["newl"]}` `New`: the options the model is built with -/', f'def {M}Options.new [GoFloat F] (ncpu : Int) (l : List ({M}Opt F)) : {M}Options F :=',
          f'  l.foldl (fun o x => x.apply o) ({M}Options.default ncpu)', '',
          f'/-- a command-line flag with its value, `{pkg}/options.go:{load}` on: cobra stores the value in the field -/', f'inductive {M}Flag (F : Type) where']
    for f in d['order']: m.append(f'  | {f} (v : {common_def[f][0]})')
    m += ['', f'/-- storing the value of a flag -/', f'def {M}Flag.set (x : {M}Flag F) (o : {M}Options F) : {M}Options F :=', '  match x with']
    for f in d['order']: m.append(f'  | .{f} v => {{ o with {f} := v }}')
    m += ['', f'/-- the options a command runs with: flags registered on the zero value (any value `z`), then parsed in order -/',
          f'def {M}Options.fromFlags [GoFloat F] (ncpu : Int) (z : {M}Options F) (l : List ({M}Flag F)) : {M}Options F :=',
          f'  l.foldl (fun o x => x.set o) (z.loadForCmd ncpu)', '']
    # props
    p.append(f'/-! ### {pkg} -/\n')
    for f in opts:
        t = common_def[f][0]
        rt = 'Bool' if t == 'Bool' else t
        p.append(f'def {M}.{f}Of : {M}Opt F → Option {rt}\n  | .{f}' + (' => some true' if t == 'Bool' else ' v => some v') + '\n  | _ => none\n')
    for f in d['order']:
        t = common_def[f][0]
        p.append(f'def {M}.{f}Flag : {M}Flag F → Option {t}\n  | .{f} v => some v\n  | _ => none\n')
    p.append(f'''/-- **C66 ({pkg}, SDK).** Each field of the options `New` uses is the value of the last option in the list that
sets this field, and the default if there is none. -/
theorem C66_{pkg}_options [GoFloat F] (ncpu : Int) (l : List ({M}Opt F)) :
    let o := {M}Options.new ncpu l
    let d : {M}Options F := {M}Options.default ncpu''')
    conj = []
    for f in d['fields']:
        if f in d['noopt']: conj.append(f'o.{f} = d.{f}')
        else: conj.append(f'o.{f} = ((l.filterMap {M}.{f}Of).getLast?).getD d.{f}')
    p.append('    ' + ' ∧\n    '.join(conj) + ' := by')
    p.append('  intro o d')
    p.append('  refine ⟨' + ', '.join(['?_'] * len(conj)) + '⟩')
    for f in d['fields']:
        sel = 'fun _ => none' if f in d['noopt'] else f'{M}.{f}Of'
        if f in d['noopt']:
            p.append(f'  · exact (last_set {M}Opt.apply (fun o => o.{f}) (fun _ => none) (by intro x s; cases x <;> rfl) l d).trans (by simp)')
        else:
            p.append(f'  · exact last_set {M}Opt.apply (fun o => o.{f}) {sel} (by intro x s; cases x <;> rfl) l d')
    p.append(f'''
/-- **C66 ({pkg}, command line).** Each field a command runs with is the value of the last flag for it, and without
such a flag the value of `DefaultOptions()`. So a command without flags uses exactly `DefaultOptions()`. -/
theorem C66_{pkg}_flags [GoFloat F] (ncpu : Int) (z : {M}Options F) (l : List ({M}Flag F)) :
    let o := {M}Options.fromFlags ncpu z l
    let d : {M}Options F := {M}Options.default ncpu
    (l = [] → o = d) ∧''')
    conj = [f'o.{f} = ((l.filterMap {M}.{f}Flag).getLast?).getD d.{f}' for f in d['fields']]
    p.append('    ' + ' ∧\n    '.join(conj) + ' := by')
    p.append('  intro o d')
    p.append('  refine ⟨fun h => by subst h; rfl, ' + ', '.join(['?_'] * len(conj)) + '⟩')
    for f in d['fields']:
        p.append(f'  · exact last_set {M}Flag.set (fun o => o.{f}) {M}.{f}Flag (by intro x s; cases x <;> rfl) l (z.loadForCmd ncpu)')
    p.append('')
p.append('''/-- A list of options that sets a field twice: the second wins, the others keep their defaults. -/
example : (W2VOptions.new 8 [.dim 100, .iter 3, .dim 50, .docInMemory] : W2VOptions ℝ).dim = 50 ∧
    (W2VOptions.new 8 [.dim 100, .iter 3, .dim 50, .docInMemory] : W2VOptions ℝ).window = 5 := ⟨rfl, rfl⟩

end Wego.Props''')
m.append('end Wego')
open(root + '/lean/Verif/Model/Options.lean', 'w').write('\n'.join(m) + '\n')
open(root + '/lean/Verif/Props/Options.lean', 'w').write('\n'.join(p) + '\n')
