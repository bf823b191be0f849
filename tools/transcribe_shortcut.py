"""Translates `find_coexisting_phases` of flory/shortcut.py.

    python3 tools/transcribe_shortcut.py [--check] [--repo DIR] [--out DIR]

Writes lean/Verif/Gen/Shortcut.lean.  The function creates objects, calls methods and reads attributes; what these
do has been translated by the other translators, and `Verif/Model/ShortcutObject.lean` connects the pieces.
Arguments are matched with the parameters in the text of the called function, defaults included, and imported names
are followed to the class that they denote.  Everything else is refused.
"""
import ast
import os
import sys
from fractions import Fraction

from messages import loggers

FILE = 'flory/shortcut.py'
CLASSES = {
    'FloryHuggins': 'flory/free_energy/flory_huggins.py',
    'CanonicalEnsemble': 'flory/ensemble/canonical.py',
    'CoexistingPhasesFinder': 'flory/mcmp/finder.py',
    'PhasesResult': 'flory/common/phases.py',
    'Phases': 'flory/common/phases.py',
}
TYPES = {
    'nat': 'ℕ', 'nd': 'NDArr ℝ', 'optnd': 'Option (NDArr ℝ)', 'FloryHuggins': 'FloryHugginsAttrs',
    'CanonicalEnsemble': 'CanonicalEnsembleAttrs', 'CoexistingPhasesFinder': 'FinderObj G M', 'Phases': 'PhasesAttrs',
    'PhasesResult': 'PhasesResultAttrs ℝ', 'FloryHugginsInteraction': 'FloryHugginsInteractionAttrs',
    'IdealGasEntropy': 'IdealGasEntropyAttrs', 'diagnostics': 'Option (Diagnostics ℝ)', 'dict': 'Dict ℝ',
}
# constructor or method: its parameters with types, the Lean function and the type of the result
CALLS = {
    ('FloryHuggins', '__init__'): ([('num_comp', 'nat'), ('chis', 'nd'), ('sizes', 'optnd')],
                                   'FloryHuggins.init', 'FloryHuggins'),
    ('CanonicalEnsemble', '__init__'): ([('num_comp', 'nat'), ('phi_means', 'optnd')],
                                        'CanonicalEnsemble.init', 'CanonicalEnsemble'),
    ('Phases', 'get_clusters'): ([('dist', 'real')], 'Phases.get_clusters scipy', 'Phases'),
    ('Phases', 'sort'): ([], 'Phases.sort sort', 'Phases'),
    ('Phases', 'normalize'): ([], 'Phases.normalize', 'Phases'),
    ('PhasesResult', 'from_phases'): ([('phases', 'Phases'), ('info', 'optdict')],
                                      'PhasesResult.from_phases', 'PhasesResult'),
}
INSTANCES = {
    'interaction': ('FloryHugginsInteraction', 'FloryHugginsInteractionCompiledAttrs'),
    'entropy': ('IdealGasEntropy', 'IdealGasEntropyCompiledAttrs'),
    'ensemble': ('CanonicalEnsemble', 'CanonicalEnsembleCompiledAttrs'),
}
RUN = [('max_steps', 'optrat'), ('tolerance', 'optreal'), ('interval', 'optint')]
ENTRIES = {
    'steps': '(d.steps : ℝ)', 'max_abs_incomp': 'd.maxAbsIncomp', 'max_abs_omega_diff': 'd.maxAbsOmegaDiff',
    'max_abs_js_diff': 'd.maxAbsJsDiff', 'max_constraint_residue': 'd.maxConstraintResidue',
    'revive_count_left': '(d.reviveCountLeft : ℝ)',
}


class Unsupported(Exception):
    pass


def parse(repo, file):
    return ast.parse(open(os.path.join(repo, file)).read())


def imports(tree, package):
    """The names imported by `from .module import name`."""
    found = {}
    for n in tree.body:
        if isinstance(n, ast.ImportFrom) and n.level == 1:
            for a in n.names:
                if a.name != '*':
                    found[a.asname or a.name] = (package + '/' + n.module.replace('.', '/'), a.name)
    return found


def resolve(repo, tree, name):
    """The file in which an imported class is defined."""
    bound = [n for n in ast.walk(tree) if isinstance(n, (ast.FunctionDef, ast.ClassDef)) and n.name == name]
    bound += [n for n in ast.walk(tree) if isinstance(n, ast.Name) and n.id == name and
              not isinstance(n.ctx, ast.Load)]
    got = imports(tree, 'flory').get(name)
    if bound or got is None or got[1] != name:
        raise Unsupported('name ' + name)
    package = got[0]
    inner = imports(parse(repo, package + '/__init__.py'), package).get(name)
    if inner is None or inner[1] != name:
        raise Unsupported('name ' + name)
    return inner[0] + '.py'


def methods(repo, cls):
    for n in parse(repo, CLASSES[cls]).body:
        if isinstance(n, ast.ClassDef) and n.name == cls:
            return {m.name: m for m in n.body if isinstance(m, ast.FunctionDef)}
    raise Unsupported('class ' + cls)


def signature(node):
    """Names of positional and of keyword-only parameters without `self`, and defaults."""
    a = node.args
    if a.vararg or a.posonlyargs:
        raise Unsupported('parameters')
    pos = [x.arg for x in a.args]
    defaults = dict(zip(pos[len(pos) - len(a.defaults):], a.defaults))
    kwo = [x.arg for x in a.kwonlyargs]
    defaults.update({n: d for n, d in zip(kwo, a.kw_defaults) if d is not None})
    if pos[:1] in (['self'], ['cls']):
        pos = pos[1:]
    return pos, kwo, defaults


def body(node):
    b = node.body
    if isinstance(b[0], ast.Expr) and isinstance(b[0].value, ast.Constant):
        b = b[1:]
    return b


class Shortcut:
    def __init__(self, repo):
        self.repo = repo
        self.tree = parse(repo, FILE)
        self.vars = {}
        self.lines = []
        self.n = 0

    def temp(self, typ, text):
        self.n += 1
        self.lines.append(f'  let t{self.n} : {TYPES[typ]} ← {text}')
        return typ, f't{self.n}'

    def convert(self, value, want):
        typ, text = value
        if typ == want:
            return text
        if (want, typ) in (('optnd', 'nd'), ('optdict', 'dict')):
            return f'(some {text})'
        if want.startswith('opt') and typ == 'None':
            return 'none'
        if want == 'real' and typ == 'num':
            return text
        raise Unsupported(f'{typ} as {want}')

    def match(self, node, call, params):
        """The Lean arguments in the order of `params`."""
        pos, kwo, defaults = signature(node)
        if node.args.kwarg:
            raise Unsupported('parameters')
        if [p for p in pos + kwo if p != 'progress'] != [p for p, _ in params]:
            raise Unsupported('parameters')
        if len(call.args) > len(pos):
            raise Unsupported('arguments')
        given = dict(zip(pos, call.args))
        for k in call.keywords:
            if k.arg is None or k.arg in given or k.arg not in pos + kwo:
                raise Unsupported('arguments')
            given[k.arg] = k.value
        if 'progress' in given:
            raise Unsupported('arguments')
        out = {}
        order = [p for p in list(given)] + [p for p in pos + kwo if p not in given and p != 'progress']
        for p in order:
            e = given.get(p, defaults.get(p))
            if e is None:
                raise Unsupported('missing argument ' + p)
            out[p] = self.convert(self.expr(e), dict(params)[p])
        return [out[p] for p, _ in params]

    def expr(self, e):
        if isinstance(e, ast.Constant):
            if e.value is None:
                return 'None', 'none'
            if isinstance(e.value, float):
                q = Fraction(str(e.value))
                return 'num', f'({q.numerator} / {q.denominator} : ℝ)'
        elif isinstance(e, ast.Name):
            if e.id in self.vars:
                return self.vars[e.id]
        elif isinstance(e, ast.Attribute):
            typ, text = self.expr(e.value)
            if typ == 'FloryHuggins' and e.attr in ('interaction', 'entropy'):
                return INSTANCES[e.attr][0], f'{text}.{e.attr}'
            if typ == 'CoexistingPhasesFinder' and e.attr == 'diagnostics':
                m = methods(self.repo, typ)['diagnostics']
                if [ast.unparse(d) for d in m.decorator_list] != ['property'] or \
                        [ast.unparse(s) for s in body(m)] != ['return self._diagnostics']:
                    raise Unsupported('property')
                return self.temp('diagnostics', f'(Act.read FinderObj._diagnostics {text}).2')
        elif isinstance(e, ast.Call):
            return self.call(e)
        raise Unsupported(ast.unparse(e))

    def call(self, e):
        f = e.func
        if isinstance(f, ast.Name) and f.id == 'CoexistingPhasesFinder':
            return self.create(e)
        if isinstance(f, ast.Name) and (f.id, '__init__') in CALLS:
            return self.apply(f.id, '__init__', e, [])
        if isinstance(f, ast.Attribute):
            if isinstance(f.value, ast.Name) and f.value.id not in self.vars and (f.value.id, f.attr) in CALLS:
                m = methods(self.repo, f.value.id)[f.attr]
                if [ast.unparse(d) for d in m.decorator_list] != ['classmethod']:
                    raise Unsupported('decorator')
                return self.apply(f.value.id, f.attr, e, [])
            typ, text = self.expr(f.value)
            if typ == 'diagnostics' and f.attr == 'copy' and not e.args and not e.keywords:
                return 'dict', f'(diagnosticsDict {text})'
            if typ == 'CoexistingPhasesFinder' and f.attr == 'run':
                return self.run(e, f, text)
            if (typ, f.attr) in CALLS and f.attr != '__init__':
                if methods(self.repo, typ)[f.attr].decorator_list:
                    raise Unsupported('decorator')
                return self.apply(typ, f.attr, e, [text])
        raise Unsupported(ast.unparse(e))

    def apply(self, cls, name, call, first):
        if name in ('__init__', 'from_phases') and resolve(self.repo, self.tree, cls) != CLASSES[cls]:
            raise Unsupported('name ' + cls)
        params, lean, ret = CALLS[cls, name]
        args = self.match(methods(self.repo, cls)[name], call, params)
        return self.temp(ret, ' '.join([lean] + first + args))

    def create(self, e):
        cls = 'CoexistingPhasesFinder'
        if resolve(self.repo, self.tree, cls) != CLASSES[cls]:
            raise Unsupported('name ' + cls)
        pos, _, _ = signature(methods(self.repo, cls)['__init__'])
        if pos != ['interaction', 'entropy', 'ensemble', 'constraints']:
            raise Unsupported('parameters')
        given = dict(zip(pos, e.args))
        stars = [k for k in e.keywords if k.arg is None]
        for k in e.keywords:
            if k.arg is not None:
                if k.arg in given or k.arg not in INSTANCES:
                    raise Unsupported('arguments')
                given[k.arg] = k.value
        if set(given) != set(INSTANCES) or [ast.unparse(k.value) for k in stars] != ['kwargs']:
            raise Unsupported('arguments')
        args = []
        for p in pos[:3]:
            typ, text = self.expr(given[p])
            if typ != INSTANCES[p][0]:
                raise Unsupported('arguments')
            args.append(f'(({typ}.object {text}).map {INSTANCES[p][1]}.pack)')
        a = ''.join(f'\n    {x}' for x in args)
        return self.temp(cls, f'newObject (CoexistingPhasesFinder.init gen newGen now other{a}\n'
                         '    constraints args kwargs)')

    def run(self, e, f, text):
        if not isinstance(f.value, ast.Name):
            raise Unsupported('run')
        args = self.match(methods(self.repo, 'CoexistingPhasesFinder')['run'], e, RUN)
        self.n += 1
        t = f't{self.n}'
        self.lines.append(f'  let {t} : FinderObj G M × Py PhasesAttrs := FinderObj.run gen {" ".join(args)} {text}')
        self.lines.append(f'  let {text} : FinderObj G M := {t}.1')
        return self.temp('Phases', f'{t}.2')

    def function(self):
        found = [n for n in self.tree.body if isinstance(n, ast.FunctionDef)]
        if [n.name for n in found] != ['find_coexisting_phases'] or found[0].decorator_list:
            raise Unsupported('functions')
        node = found[0]
        pos, kwo, defaults = signature(node)
        if pos != ['num_comp', 'chis', 'phi_means', 'sizes'] or kwo or not node.args.kwarg or \
                node.args.kwarg.arg != 'kwargs' or {k: ast.unparse(v) for k, v in defaults.items()} != \
                {'sizes': 'None'}:
            raise Unsupported('parameters')
        self.vars = {'num_comp': ('nat', 'num_comp'), 'chis': ('nd', 'chis'), 'phi_means': ('optnd', 'phi_means'),
                     'sizes': ('optnd', 'sizes')}
        stmts = body(node)
        for s in stmts[:-1]:
            if not isinstance(s, ast.Assign) or len(s.targets) != 1 or not isinstance(s.targets[0], ast.Name):
                raise Unsupported(ast.unparse(s))
            typ, text = self.expr(s.value)
            name = s.targets[0].id
            if typ not in TYPES:
                raise Unsupported(ast.unparse(s))
            if typ == 'CoexistingPhasesFinder' and isinstance(s.value, ast.Name):
                raise Unsupported('second name of an object that changes')
            self.lines.append(f'  let {name} : {TYPES[typ]} := {text}')
            self.vars[name] = (typ, name)
        s = stmts[-1]
        if not isinstance(s, ast.Return) or s.value is None:
            raise Unsupported(ast.unparse(s))
        typ, text = self.expr(s.value)
        if typ != 'PhasesResult':
            raise Unsupported(ast.unparse(s))
        self.lines.append(f'  pure {text}')
        return node


def entries(repo):
    """The dictionary assigned at the end of `run`."""
    node = methods(repo, 'CoexistingPhasesFinder')['run']
    found = [s for s in ast.walk(node) if isinstance(s, ast.Assign) and
             ast.unparse(s.targets[0]) == 'self._diagnostics']
    if len(found) != 1 or not isinstance(found[0].value, ast.Dict):
        raise Unsupported('diagnostics')
    keys = [k.value for k in found[0].value.keys]
    if sorted(keys) != sorted([*ENTRIES, 'time']):
        raise Unsupported('diagnostics')
    return keys, found[0]


def run(repo):
    s = Shortcut(repo)
    node = s.function()
    keys, stmt = entries(repo)
    out = ['import Verif.Model.ShortcutObject', '', '/-!', '# Transcription of `flory/shortcut.py`', '',
           'Written by `tools/transcribe_shortcut.py`; do not edit.', '-/', '',
           'set_option linter.unusedVariables false', '', 'namespace Flory.Gen', '',
           'variable {G : Type} {M : ℕ}', '',
           '/-- A copy of the dictionary `diagnostics`, empty before `run` '
           f'(`flory/mcmp/finder.py:{stmt.lineno}-{stmt.end_lineno}`),',
           'without the entry `time`. -/',
           'def diagnosticsDict : Option (Diagnostics ℝ) → Dict ℝ', '  | none => []',
           '  | some d => [' + ',\n    '.join(f'("{k}", {ENTRIES[k]})' for k in keys if k != 'time') + ']', '',
           f'/-- `find_coexisting_phases` (`{FILE}:{node.lineno}-{node.end_lineno}`).  The keyword arguments are',
           '`constraints`, `args` and, for the compiled instances, `kwargs`. -/',
           'noncomputable def find_coexisting_phases (gen : Rng G ℝ) (newGen : ℤ → G) (now : ℤ)',
           '    (other : ℕ → PackedCons M → PackedCons M) (scipy : Scipy) (sort : ArgSort ℝ) (num_comp : ℕ)',
           '    (chis : NDArr ℝ) (phi_means : Option (NDArr ℝ)) (sizes : Option (NDArr ℝ))',
           '    (constraints : ConsArg) (args : InitArgs G) (kwargs : Dict ℝ) : Py (PhasesResultAttrs ℝ) := do']
    out += s.lines + ['', 'end Flory.Gen']
    return '\n'.join(out) + '\n'


def main():
    repo, out = '/repo', os.path.join(os.path.dirname(__file__), '..', 'lean', 'Verif', 'Gen')
    a = sys.argv[1:]
    if '--repo' in a:
        repo = a[a.index('--repo') + 1]
    if '--out' in a:
        out = a[a.index('--out') + 1]
    os.makedirs(out, exist_ok=True)
    loggers(repo)
    text = run(repo)
    p = os.path.join(out, 'Shortcut.lean')
    if '--check' in a:
        bad = not os.path.exists(p) or open(p).read() != text
        print('1 modules,', int(bad), 'differ')
        sys.exit(bad)
    open(p, 'w').write(text)


if __name__ == '__main__':
    main()
