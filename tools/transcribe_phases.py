"""Transcribe flory/common/phases.py into Lean definitions.

    python3 tools/transcribe_phases.py            write lean/Verif/Gen/Phases.lean
    python3 tools/transcribe_phases.py --check    compare with the committed file
    python3 tools/transcribe_phases.py --repo DIR --out DIR

Same conventions as `transcribe_objects.py`.  A method that is inherited is written out once for every class,
because `self._copy` depends on the class of the object.  numpy's `argsort`, the functions of scipy and the
random generator are parameters.  A dictionary is its content; sharing of dictionaries is not represented.
"""
import ast, os, sys
from messages import loggers
from transcribe_objects import Unsupported, Const, V, World, number, atom, cite, CMP, ERRORS

FILE = 'flory/common/phases.py'
TYPES = {'nd': 'NDArr ℝ', 'ndn': 'NDArr ℕ', 'nat': 'ℕ', 'real': 'ℝ', 'nats': 'List ℕ', 'ints': 'List ℤ',
         'int': 'ℤ', 'reals': 'List ℝ', 'nds': 'List (NDArr ℝ)', 'optdict': 'Option (Dict V)', 'dict': 'Dict V',
         'Phases': 'PhasesAttrs', 'PhasesResult': 'PhasesResultAttrs V', 'empty': 'List Unit', 'gen': 'G'}
EXTERNAL = {'sort': '(sort : ArgSort ℝ)', 'scipy': '(scipy : Scipy)'}
# the attributes are those of the constructors
ATTRS = {'Phases': {'volumes': 'nd', 'fractions': 'nd'},
         'PhasesResult': {'volumes': 'nd', 'fractions': 'nd', '_info': 'dict'}}
ITEMS = [('Phases', n, kind) for n, kind in
         (('_copy', 'method'), ('num_phases', 'property'), ('num_components', 'property'),
          ('total_volume', 'property'), ('mean_fractions', 'property'), ('normalize', 'method'),
          ('sort', 'method'), ('get_clusters', 'method'))] + \
        [('PhasesResult', '__init__', 'init'), ('PhasesResult', 'from_phases', 'class'),
         ('PhasesResult', 'info', 'property'),
         ('PhasesResult', '_copy', 'method'), ('PhasesResult', 'num_phases', 'property'),
         ('PhasesResult', 'total_volume', 'property'), ('PhasesResult', 'normalize', 'method'),
         ('PhasesResult', 'sort', 'method'), ('PhasesResult', 'get_clusters', 'method')]
PARAMS = {'volumes': 'nd', 'fractions': 'nd', 'dist': 'real', 'info': 'optdict', 'phases': 'Phases'}


class Fun:
    def __init__(self, world, cls, env, done, lines=None, depth=1, counter=None, external=None):
        self.world, self.cls, self.env, self.done = world, cls, env, done
        self.lines = [] if lines is None else lines
        self.depth, self.counter = depth, counter or [0]
        self.external = set() if external is None else external
        self.ret = None
        self.attrs = {}

    def sub(self, env, lines, depth):
        s = Fun(self.world, self.cls, env, self.done, lines, depth, self.counter, self.external)
        s.attrs = self.attrs
        return s

    def emit(self, s):
        self.lines.append('  ' * self.depth + s)

    def let(self, t, code, monadic):
        self.counter[0] += 1
        n = f't{self.counter[0]}'
        self.emit(f"let {n} : {TYPES[t]} {'←' if monadic else ':='} {code}")
        return V(t, n)

    def real(self, v):
        if isinstance(v, Const) and isinstance(v.value, (int, float)) and not isinstance(v.value, bool):
            return number(v.value)
        if isinstance(v, V) and v.t == 'real':
            return v.code
        raise Unsupported('number')

    def nat(self, v):
        if isinstance(v, Const) and isinstance(v.value, int) and v.value >= 0:
            return str(v.value)
        if isinstance(v, V) and v.t == 'nat':
            return v.code
        raise Unsupported('natural number')

    def ts(self, *vs):
        return [v.t if isinstance(v, V) else 'const' for v in vs]

    # ------------------------------------------------------------ expressions
    def attribute(self, name):
        if name in self.attrs:  # a constructor, after the assignment
            return self.attrs[name]
        if self.world.find_property(self.cls, name) is not None:
            d = self.done[(self.cls, name)]
            self.external |= d['external']
            return self.let(d['ret'], ' '.join([d['lean'], *sorted(d['external']), 'self']), True)
        if 'self' in self.env and name in ATTRS[self.cls]:
            return V(ATTRS[self.cls][name], f'self.{name}')
        raise Unsupported(f'attribute {name}')

    def expr(self, e):
        if isinstance(e, ast.Constant):
            return Const(e.value)
        if isinstance(e, ast.UnaryOp) and isinstance(e.op, ast.USub) and isinstance(e.operand, ast.Constant):
            return Const(-e.operand.value)
        if isinstance(e, ast.Name):
            if e.id in self.env:
                return self.env[e.id]
            raise Unsupported(f'unknown variable {e.id}')
        if isinstance(e, ast.List) and not e.elts:
            return V('empty', '[]')
        if isinstance(e, ast.Attribute):
            if ast.unparse(e.value) == 'self':
                return self.attribute(e.attr)
            v = self.expr(e.value)
            if self.ts(v) == ['Phases'] and e.attr in ATTRS['Phases']:
                return V(ATTRS['Phases'][e.attr], f'{v.code}.{e.attr}')
            raise Unsupported(ast.unparse(e))
        if isinstance(e, ast.Subscript):
            return self.subscript(e)
        if isinstance(e, ast.BinOp):
            a, b = self.expr(e.left), self.expr(e.right)
            ts = self.ts(a, b)
            if isinstance(e.op, ast.MatMult) and ts == ['nd', 'nd']:
                return self.let('nd', f'NDArr.vecMat {a.code} {b.code}', True)
            if isinstance(e.op, ast.Div) and ts == ['nd', 'real']:
                return self.let('nd', f'NDArr.map (fun x => x / {b.code}) {a.code}', False)
            if isinstance(e.op, ast.Sub) and 'nat' in ts and set(ts) <= {'nat', 'const'}:
                return V('nat', f'({self.nat(a)} - {self.nat(b)})')
            if isinstance(e.op, (ast.Sub, ast.Mult, ast.Add)) and set(ts) <= {'real', 'const'}:
                o = {ast.Sub: '-', ast.Mult: '*', ast.Add: '+'}[type(e.op)]
                return V('real', f'({self.real(a)} {o} {self.real(b)})')
            raise Unsupported(ast.unparse(e))
        if isinstance(e, ast.Dict) and not e.keys:
            return V('dict', '[]')
        if isinstance(e, ast.IfExp):
            t = e.test
            if isinstance(t, ast.Compare) and isinstance(t.ops[0], ast.Is) and isinstance(t.left, ast.Name) and \
                    self.ts(self.env[t.left.id]) == ['optdict'] and ast.unparse(t.comparators[0]) == 'None':
                n = t.left.id
                env = {k: v for k, v in self.env.items() if k != n}
                a = self.sub(env, self.lines, self.depth).expr(e.body)
                b = self.sub({**self.env, n: V('dict', n)}, self.lines, self.depth).expr(e.orelse)
                if self.ts(a, b) != ['dict', 'dict']:
                    raise Unsupported('branches')
                return self.let('dict', f'match {self.env[n].code} with | none => {a.code} | some {n} => {b.code}',
                                False)
            raise Unsupported(ast.unparse(e))
        if isinstance(e, ast.Call):
            return self.call(e)
        raise Unsupported(ast.unparse(e))

    def mask(self, e):
        if isinstance(e, ast.Compare) and len(e.ops) == 1 and isinstance(e.ops[0], ast.Eq):
            a, b = self.expr(e.left), self.expr(e.comparators[0])
            if self.ts(a, b) == ['ints', 'int']:
                return f'({a.code}.map fun x => decide (x = {b.code}))'
        raise Unsupported(ast.unparse(e))

    def subscript(self, e):
        v, sl = self.expr(e.value), e.slice
        if isinstance(e.value, ast.Attribute) and e.value.attr == 'shape':
            raise Unsupported('shape')
        if self.ts(v) != ['nd']:
            raise Unsupported(ast.unparse(e))
        if isinstance(sl, ast.Slice) and sl.lower is None and sl.step is None and ast.unparse(sl.upper) == '-1':
            return self.let('nd', f'NDArr.init {v.code}', False)
        if isinstance(sl, ast.Tuple) and len(sl.elts) == 2 and ast.unparse(sl.elts[1]) == ':' and \
                isinstance(sl.elts[0], ast.Compare):
            return self.let('nd', f'NDArr.maskRows {v.code} {self.mask(sl.elts[0])}', True)
        if isinstance(sl, ast.Compare):
            return self.let('nd', f'NDArr.maskRows {v.code} {self.mask(sl)}', True)
        k = self.expr(sl)
        if self.ts(k) == ['nats']:
            return self.let('nd', f'NDArr.takeRows {v.code} {k.code}', True)
        raise Unsupported(ast.unparse(e))

    def construct(self, name, args, kw):
        """A call of a constructor: lists become arrays (`np.asarray`)."""
        codes = []
        for a in args:
            if self.ts(a) == ['reals']:
                codes.append(self.let('nd', f'NDArr.ofReals {a.code}', False).code)
            elif self.ts(a) == ['nds']:
                codes.append(self.let('nd', f'NDArr.stack {a.code}', True).code)
            elif self.ts(a) == ['nd']:
                codes.append(atom(a.code))
            else:
                raise Unsupported('argument of a constructor')
        if len(codes) != 2:
            raise Unsupported('constructor')
        if name == 'Phases' and not kw:
            return self.let('Phases', ' '.join(['Phases.init'] + codes), True)
        if name == 'PhasesResult' and set(kw) == {'info'}:
            i = kw['info']
            code = f'(some {i.code})' if self.ts(i) == ['dict'] else i.code if self.ts(i) == ['optdict'] else None
            if code:
                return self.let('PhasesResult', ' '.join(['PhasesResult.init'] + codes + [code]), True)
        raise Unsupported('constructor')

    def call(self, e):
        name = ast.unparse(e.func)
        if name == 'self.__class__' or name == 'cls':
            return self.construct(self.cls, [self.expr(a) for a in e.args],
                                  {k.arg: self.expr(k.value) for k in e.keywords})
        if name == 'self._copy' and not e.keywords:
            d = self.done[(self.cls, '_copy')]
            # lists are converted by the constructor that `_copy` calls
            codes = []
            for a in e.args:
                v = self.expr(a)
                t = self.ts(v)
                if t == ['reals']:
                    v = self.let('nd', f'NDArr.ofReals {v.code}', False)
                elif t == ['nds']:
                    v = self.let('nd', f'NDArr.stack {v.code}', True)
                elif t != ['nd']:
                    raise Unsupported('argument')
                codes.append(atom(v.code))
            if len(codes) != 2:
                raise Unsupported('argument')
            return self.let(d['ret'], ' '.join([d['lean'], 'self'] + codes), True)
        kw = {k.arg: ast.unparse(k.value) for k in e.keywords}
        if isinstance(e.func, ast.Attribute) and not e.args and not kw and e.func.attr in ('sum', 'copy'):
            v = self.expr(e.func.value)
            if e.func.attr == 'sum' and self.ts(v) == ['nd']:
                return self.let('real', f'NDArr.sum {v.code}', False)
            if e.func.attr == 'copy' and self.ts(v) == ['dict']:
                return v
            raise Unsupported(ast.unparse(e))
        if name == 'np.average':
            (a,) = [self.expr(x) for x in e.args]
            k = {k.arg: k.value for k in e.keywords}
            if set(k) == {'weights', 'axis'} and kw['axis'] == '0':
                w = self.expr(k['weights'])
                if self.ts(a, w) == ['nd', 'nd']:
                    return self.let('nd', f'NDArr.average {a.code} {w.code}', True)
            raise Unsupported(ast.unparse(e))
        if name == 'rng.beta' and self.ts(self.env['rng']) == ['gen'] and not kw:
            a, b = [atom(self.nat(self.expr(x))) for x in e.args]
            self.emit(f'let drawn : ℝ × G := beta rng {a} {b}')
            self.emit('let rng : G := drawn.2')
            return self.let('real', 'drawn.1', False)
        args = [self.expr(a) for a in e.args]
        ts = self.ts(*args)
        c = [x.code for x in args if isinstance(x, V)]
        if name == 'len' and ts == ['nd'] and not kw:
            return self.let('nat', f'NDArr.len {c[0]}', True)
        if name == 'np.argsort' and ts == ['nd'] and not kw:
            self.external.add('sort')
            return self.let('ndn', f'NDArr.argsort sort {c[0]}', False)
        if name == 'np.transpose' and ts == ['ndn'] and not kw:
            return self.let('ndn', f'NDArr.transpose {c[0]}', False)
        if name == 'np.lexsort' and ts == ['ndn'] and not kw:
            return self.let('nats', f'NDArr.lexsort {c[0]}', True)
        if name == 'np.empty' and len(args) == 1 and not kw:
            return self.let('nd', f'⟨[{self.nat(args[0])}], junk⟩', False)
        if name == 'spatial.distance.pdist' and ts == ['nd'] and not kw:
            self.external.add('scipy')
            return self.let('nd', f'scipy.pdist {c[0]}', False)
        if name == 'cluster.hierarchy.linkage' and ts == ['nd'] and set(kw) == {'method'}:
            self.external.add('scipy')
            return self.let('nd', f'scipy.linkage {c[0]} "{ast.literal_eval(kw["method"])}"', True)
        if name == 'cluster.hierarchy.fcluster' and ts == ['nd', 'real'] and set(kw) == {'criterion'}:
            self.external.add('scipy')
            return self.let('ints', f'scipy.fcluster {c[0]} {c[1]} "{ast.literal_eval(kw["criterion"])}"', True)
        if name == 'np.unique' and ts == ['ints'] and not kw:
            return self.let('ints', f'uniqueLabels {c[0]}', False)
        raise Unsupported(ast.unparse(e))

    # ------------------------------------------------------------ statements
    def assign(self, n, v):
        if isinstance(v, Const):
            v = V('real', number(v.value)) if isinstance(v.value, float) else v
        if isinstance(v, Const) or v.t == 'empty':
            self.env[n] = v
            return
        self.emit(f'let {n} : {TYPES[v.t]} := {v.code}')
        self.env[n] = V(v.t, n)

    def block(self, body):
        """True if the block ended with `return`."""
        for k, s in enumerate(body):
            if isinstance(s, ast.Expr) and isinstance(s.value, ast.Constant) or isinstance(s, ast.Pass):
                continue
            if isinstance(s, ast.Return):
                self.ret = self.expr(s.value)
                if not isinstance(self.ret, V):
                    raise Unsupported('return')
                self.emit(f'pure {self.ret.code}')
                return True
            if isinstance(s, ast.If):
                if s.orelse:
                    raise Unsupported('else')
                t = s.test
                if not (isinstance(t, ast.Compare) and len(t.ops) == 1 and type(t.ops[0]) in CMP):
                    raise Unsupported(ast.unparse(t))
                a, b = self.nat(self.expr(t.left)), self.nat(self.expr(t.comparators[0]))
                self.emit(f'if {a} {CMP[type(t.ops[0])]} {b} then do')
                x = self.sub(dict(self.env), self.lines, self.depth + 1)
                if not x.block(s.body):
                    raise Unsupported('if without return')
                self.emit('else do')
                y = self.sub(dict(self.env), self.lines, self.depth + 1)
                if not y.block(body[k + 1:]) or y.ret.t != x.ret.t:
                    raise Unsupported('no return')
                self.ret = y.ret
                return True
            self.statement(s)
        return False

    def statement(self, s):
        if isinstance(s, ast.Assign) and len(s.targets) == 1:
            t = s.targets[0]
            if isinstance(t, ast.Name):
                if t.id == 'rng':
                    if ast.unparse(s.value) != 'np.random.default_rng(rng)' or self.ts(self.env['rng']) != ['seed']:
                        raise Unsupported('rng')
                    self.env['rng'] = V('gen', 'rng')
                    return  # a generator is given: the same object
                self.assign(t.id, self.expr(s.value))
                return
            if isinstance(t, ast.Attribute) and ast.unparse(t.value) == 'self' and self.cls:
                v = self.expr(s.value)
                self.emit(f'let self_{t.attr} : {TYPES[v.t]} := {v.code}')
                self.attrs[t.attr] = V(v.t, f'self_{t.attr}')
                return
            if isinstance(t, ast.Subscript) and isinstance(t.value, ast.Name):
                n = t.value.id
                v = self.real(self.expr(s.value))
                k = self.expr(t.slice)
                i = f'({k.value})' if isinstance(k, Const) and isinstance(k.value, int) else f'({self.nat(k)} : ℤ)'
                if self.ts(self.env[n]) != ['nd']:
                    raise Unsupported('item assignment')
                self.emit(f'let {n} : NDArr ℝ ← NDArr.setItem {self.env[n].code} {i} {atom(v)}')
                self.env[n] = V('nd', n)
                return
        if isinstance(s, ast.AugAssign) and isinstance(s.target, ast.Name) and \
                isinstance(s.op, (ast.Sub, ast.Add, ast.Mult)):
            o = {ast.Sub: '-', ast.Add: '+', ast.Mult: '*'}[type(s.op)]
            n = s.target.id
            self.assign(n, V('real', f'{self.real(self.env[n])} {o} {self.real(self.expr(s.value))}'))
            return
        if isinstance(s, ast.Expr) and isinstance(s.value, ast.Call):
            c = s.value
            if ast.unparse(c.func) == 'super().__init__' and not c.keywords and \
                    self.world.base(self.cls) == 'Phases':
                r = self.construct('Phases', [self.expr(a) for a in c.args], {})
                for a, t in ATTRS['Phases'].items():
                    self.attrs[a] = V(t, f'{r.code}.{a}')
                return
            if isinstance(c.func, ast.Attribute) and c.func.attr == 'append' and isinstance(c.func.value, ast.Name) \
                    and len(c.args) == 1 and not c.keywords:
                n = c.func.value.id
                l, v = self.env[n], self.expr(c.args[0])
                want = {'nd': 'nds', 'real': 'reals'}[v.t]
                if l.t not in (want, 'empty'):
                    raise Unsupported('list of different things')
                self.emit(f'let {n} : {TYPES[want]} := {l.code} ++ [{v.code}]')
                self.env[n] = V(want, n)
                return
        if isinstance(s, ast.For) and not s.orelse and isinstance(s.target, ast.Name):
            self.loop(s)
            return
        raise Unsupported(ast.unparse(s))

    def loop(self, s):
        if isinstance(s.iter, ast.Call) and ast.unparse(s.iter.func) == 'range' and len(s.iter.args) == 1:
            it, ti = f'(List.range {atom(self.nat(self.expr(s.iter.args[0])))})', 'nat'
        else:
            v = self.expr(s.iter)
            if self.ts(v) != ['ints']:
                raise Unsupported('iterator')
            it, ti = v.code, 'int'
        # variables that exist before the loop and are changed by its body
        names = []
        for x in s.body:
            for y in ast.walk(x):
                n = None
                if isinstance(y, ast.Assign):
                    t = y.targets[0]
                    n = t.value if isinstance(t, ast.Subscript) else t
                elif isinstance(y, ast.AugAssign):
                    n = y.target
                elif isinstance(y, ast.Call) and isinstance(y.func, ast.Attribute) and \
                        y.func.attr in ('append', 'beta'):
                    n = y.func.value
                if isinstance(n, ast.Name) and n.id in self.env and n.id not in names:
                    names.append(n.id)
        # types of lists that are still empty: from a trial translation
        trial = self.sub({**self.env, s.target.id: V(ti, s.target.id)}, [], 0)
        trial.counter = [0]
        if trial.block(s.body):
            raise Unsupported('return in a loop')
        types = [trial.env[n].t for n in names]
        for n, t in zip(names, types):
            if self.env[n].t not in (t, 'empty'):
                raise Unsupported('type changes')
        tup = lambda l: l[0] if len(l) == 1 else '(' + ', '.join(l) + ')'
        self.emit(f"let state : {' × '.join(TYPES[t] for t in types)} ← forListM {it} "
                  f'{tup([self.env[n].code for n in names])} fun {s.target.id} state => do')
        proj = lambda k: 'state' if len(names) == 1 else 'state' + '.2' * k + ('.1' if k < len(names) - 1 else '')
        body = self.sub({**self.env, s.target.id: V(ti, s.target.id)}, self.lines, self.depth + 1)
        for k, (n, t) in enumerate(zip(names, types)):
            body.emit(f'let {n} : {TYPES[t]} := {proj(k)}')
            body.env[n] = V(t, n)
        body.block(s.body)
        body.emit(f'pure {tup([body.env[n].code for n in names])}')
        for k, (n, t) in enumerate(zip(names, types)):
            self.emit(f'let {n} : {TYPES[t]} := {proj(k)}')
            self.env[n] = V(t, n)
        # other variables of the body may be unbound after the loop
        for n in [n for n in body.env if n not in self.env or body.env[n] is not self.env[n]]:
            if n not in names:
                self.env.pop(n, None)


def run(repo):
    w = World(repo)
    w.load(FILE)
    out = ['import Verif.Gen.Objects', 'import Verif.Model.TranscriptPhases', '', '/-!',
           f'# Transcription of `{FILE}`', '',
           'Written by `tools/transcribe_phases.py`; do not edit.', '-/', '',
           'set_option linter.unusedVariables false', '', 'namespace Flory.Gen', '', 'variable {V : Type}', '']
    (node,) = [x for x in w.trees[FILE].body if isinstance(x, ast.FunctionDef)]
    if node.name != 'get_uniform_random_composition' or [a.arg for a in node.args.args] != ['num_comps', 'rng']:
        raise Unsupported('functions')
    f = Fun(w, None, {'num_comps': V('nat', 'num_comps'), 'rng': V('seed', 'rng')}, {})
    if not f.block(node.body) or f.ret.t != 'nd':
        raise Unsupported('return')
    f.lines[-1] = f'  pure ({f.ret.code}, rng)'
    out += [f'/-- `{node.name}` ({cite(FILE, node)}).  `junk` is the content of `np.empty`. -/',
            f'noncomputable def {node.name} {{G : Type}} (beta : G → ℕ → ℕ → ℝ × G) (num_comps : ℕ)',
            '    (junk : List ℕ → ℝ) (rng : G) : Py (NDArr ℝ × G) := do'] + f.lines + ['']
    done = {}
    for cls, name, kind in ITEMS:
        owner = next(c for c in w.chain(cls) if name in w.classes[c]['props' if kind == 'property' else 'methods'])
        node = w.classes[owner]['props' if kind == 'property' else 'methods'][name]
        if sum(isinstance(x, ast.FunctionDef) and x.name == name for c in w.trees[FILE].body
               if isinstance(c, ast.ClassDef) and c.name == owner for x in c.body) != 1:
            raise Unsupported('several definitions')
        decs = [ast.unparse(d) for d in node.decorator_list]
        if decs != {'property': ['property'], 'class': ['classmethod']}.get(kind, []):
            raise Unsupported('decorators')
        params = [(a.arg, PARAMS[a.arg]) for a in node.args.args[1:] + node.args.kwonlyargs]
        env = {p: V(t, p) for p, t in params}
        if kind in ('method', 'property'):
            env['self'] = V(cls, 'self')
            params = [('self', cls)] + params
        f = Fun(w, cls, env, done)
        if name == 'num_components':
            body = [x for x in node.body if not (isinstance(x, ast.Expr) and isinstance(x.value, ast.Constant))]
            if [ast.unparse(x) for x in body] != ['return self.fractions.shape[1]']:
                raise Unsupported('num_components')
            f.lines, f.ret = ['  shapeAt self.fractions.shape 1'], V('nat', '')
        elif kind == 'init':
            if f.block(node.body):
                raise Unsupported('return')
            if {a: v.t for a, v in f.attrs.items()} != ATTRS[cls]:
                raise Unsupported('attributes')
            f.emit('pure { ' + ', '.join(f'{a} := {v.code}' for a, v in f.attrs.items()) + ' }')
            f.ret = V(cls, '')
            out += [f'/-- Attributes of a `{cls}` object after its constructor ({cite(FILE, node)}). -/',
                    f'structure {cls}Attrs (V : Type) where'] + [f'  {a} : {TYPES[t]}' for a, t in ATTRS[cls].items()]
            out.append('')
        elif not f.block(node.body):
            raise Unsupported('no return')
        lean = f"{cls}.{'init' if kind == 'init' else name}"
        binders = [EXTERNAL[x] for x in sorted(f.external)] + [f'({p} : {TYPES[t]})' for p, t in params]
        what = f'`{owner}.{name}`' + (f' for a `{cls}`' if owner != cls else '')
        out += [f'/-- {what} ({cite(FILE, node)}). -/', f"noncomputable def {lean} {' '.join(binders)} :",
                f'    Py ({TYPES[f.ret.t]}) := do'] + f.lines + ['']
        done[(cls, name)] = {'lean': lean, 'ret': f.ret.t, 'external': f.external}
    out.append('end Flory.Gen')
    return '\n'.join(out) + '\n'


def main():
    repo, out = '/repo', os.path.join(os.path.dirname(__file__), '..', 'lean', 'Verif', 'Gen')
    a = sys.argv[1:]
    if '--repo' in a:
        repo = a[a.index('--repo') + 1]
    if '--out' in a:
        out = a[a.index('--out') + 1]
    os.makedirs(out, exist_ok=True)
    loggers(repo)
    text = run(repo)
    p = os.path.join(out, 'Phases.lean')
    if '--check' in a:
        bad = not os.path.exists(p) or open(p).read() != text
        print('1 modules,', int(bad), 'differ')
        sys.exit(bad)
    open(p, 'w').write(text)


if __name__ == '__main__':
    main()
