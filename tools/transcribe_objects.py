"""Transcribe constructors, setters and array utilities into Lean definitions.

    python3 tools/transcribe_objects.py            write lean/Verif/Gen/Objects.lean
    python3 tools/transcribe_objects.py --check    compare with the committed file
    python3 tools/transcribe_objects.py --repo DIR --out DIR

Arrays have any shape (`NDArr`).  Every operation becomes one line calling a primitive of
`Verif/Model/TranscriptObjects.lean` (or of the files it imports).  An object is the record of its
attributes.  A constructor returns that record; constructors of base classes and setters called through
`self.x = …` are written out in place.  Reading an attribute that has not been assigned on the way
raises `AttributeError`.  Messages of the logger have no effect, but reading `self._logger` before it is
assigned raises as well.  Anything not understood raises an error.
"""
import ast, os, sys
from fractions import Fraction

sys.path.insert(0, os.path.dirname(os.path.abspath(__file__)))
from messages import creation, is_message, loggers, message


class Unsupported(Exception):
    pass


TYPES = {'nd': 'NDArr ℝ', 'ndn': 'NDArr ℕ', 'nat': 'ℕ', 'shape': 'List ℕ', 'real': 'ℝ', 'bool': 'Bool',
         'optnd': 'Option (NDArr ℝ)', 'reals': 'List ℝ', 'nats': 'List ℕ', 'rng': 'ℝ → ℝ → ℕ → List ℝ'}
ERRORS = {'ValueError': 'valueError', 'ComponentNumberError': 'componentNumberError'}
CMP = {ast.Lt: '<', ast.Eq: '=', ast.NotEq: '≠', ast.Gt: '>', ast.LtE: '≤', ast.GtE: '≥'}


def ty(t):
    return TYPES.get(t) or t[1]


def atom(s):
    return f'({s})' if ' ' in s else s


class V:
    def __init__(self, t, code):
        self.t, self.code = t, code


class Const:
    def __init__(self, value):
        self.value = value


def number(x):
    q = Fraction(str(x)) if isinstance(x, float) else Fraction(x)
    return f'({q.numerator} : ℝ)' if q.denominator == 1 else f'({q.numerator} / {q.denominator} : ℝ)'


class Raise(Exception):
    """The code at this point always raises."""


class Fun:
    def __init__(self, world, cls, env, attrs, lines=None, depth=1, counter=None, suffix=''):
        self.world, self.cls, self.env, self.attrs = world, cls, env, attrs
        self.lines = [] if lines is None else lines
        self.depth = depth
        self.counter = counter or [0]
        self.ret = None
        self.suffix = suffix
        self.current = None

    def emit(self, s):
        self.lines.append('  ' * self.depth + s)

    def fresh(self):
        self.counter[0] += 1
        return f't{self.counter[0]}'

    def let(self, t, code, monadic):
        n = self.fresh()
        self.emit(f"let {n} : {ty(t)} {'←' if monadic else ':='} {code}")
        return V(t, n)

    # ------------------------------------------------------------ expressions
    def real(self, v):
        if isinstance(v, Const) and isinstance(v.value, (int, float)):
            return number(v.value)
        if v.t == 'real':
            return v.code
        if v.t == 'nat':
            return f'({v.code} : ℝ)'
        raise Unsupported(f'number {v.t}')

    def nat(self, v):
        if isinstance(v, Const) and isinstance(v.value, int) and v.value >= 0:
            return str(v.value)
        if isinstance(v, V) and v.t == 'nat':
            return v.code
        raise Unsupported('natural number')

    def shape(self, v):
        if isinstance(v, V) and v.t == 'shape':
            return v.code
        if isinstance(v, V) and v.t == 'nat':
            return f'[{v.code}]'
        raise Unsupported('shape')

    def attribute(self, name):
        props = self.world.find_property(self.cls, name)
        if props is not None:
            body = [s for s in props.body if not (isinstance(s, ast.Expr) and isinstance(s.value, ast.Constant))]
            if len(body) == 1 and isinstance(body[0], ast.Return):
                return self.expr(body[0].value)
            raise Unsupported(f'property {name}')
        if name not in self.attrs:
            self.emit('.error .attributeError')
            raise Raise
        return self.attrs[name]

    def expr(self, e):
        if isinstance(e, ast.Constant):
            return Const(e.value)
        if isinstance(e, ast.Name):
            if e.id in self.env:
                return self.env[e.id]
            raise Unsupported(f'unknown variable {e.id}')
        if isinstance(e, ast.Tuple):
            return V('shape', '[' + ', '.join(self.nat(self.expr(x)) for x in e.elts) + ']')
        if isinstance(e, ast.Attribute):
            if ast.unparse(e.value) == 'self':
                return self.attribute(e.attr)
            v = self.expr(e.value)
            if isinstance(v, V) and isinstance(v.t, tuple):
                f = dict(v.t[2]).get(e.attr)
                if f:
                    return V(f, f'{v.code}.{e.attr}')
            if isinstance(v, V) and v.t in ('nd', 'ndn'):
                if e.attr == 'T' and v.t == 'nd':
                    return self.let('nd', f'NDArr.transpose {v.code}', False)
                if e.attr == 'ndim':
                    return V('nat', f'{v.code}.ndim')
                if e.attr == 'shape':
                    return V('shape', f'{v.code}.shape')
            raise Unsupported(ast.unparse(e))
        if isinstance(e, ast.Subscript):
            v, k = self.expr(e.value), self.expr(e.slice)
            if isinstance(v, V) and v.t == 'shape' and isinstance(k, Const) and isinstance(k.value, int):
                return self.let('nat', f'shapeAt {v.code} {k.value}', True)
            raise Unsupported(ast.unparse(e))
        if isinstance(e, ast.UnaryOp) and isinstance(e.op, ast.USub):
            v = self.expr(e.operand)
            if isinstance(v, Const):
                return Const(-v.value)
        if isinstance(e, ast.IfExp):
            c = self.condition(e.test)
            a, b = self.expr(e.body), self.expr(e.orelse)
            return V('nat', f'(if {c} then {self.nat(a)} else {self.nat(b)})')
        if isinstance(e, ast.BinOp):
            return self.binop(e)
        if isinstance(e, ast.Call):
            return self.call(e)
        raise Unsupported(ast.unparse(e))

    def binop(self, e):
        a, b = self.expr(e.left), self.expr(e.right)
        ta = a.t if isinstance(a, V) else 'const'
        tb = b.t if isinstance(b, V) else 'const'
        if ta == tb == 'nd' and isinstance(e.op, (ast.Add, ast.Mult, ast.Sub)):
            f = {ast.Add: 'x + y', ast.Mult: 'x * y', ast.Sub: 'x - y'}[type(e.op)]
            return self.let('nd', f'NDArr.zip2 (fun x y => {f}) {a.code} {b.code}', True)
        if tb == 'nd' and ta in ('const', 'real', 'nat') and isinstance(e.op, (ast.Mult, ast.Add)):
            o = '*' if isinstance(e.op, ast.Mult) else '+'
            return self.let('nd', f'NDArr.map (fun x => {self.real(a)} {o} x) {b.code}', False)
        if isinstance(e.op, ast.Div) and 'nd' not in (ta, tb):
            return self.let('real', f'pyDiv {self.real(a)} {self.real(b)}', True)
        if isinstance(e.op, (ast.Mult, ast.Add, ast.FloorDiv, ast.Sub)) and 'nat' in (ta, tb) and \
                {ta, tb} <= {'nat', 'const'}:
            if isinstance(e.op, ast.FloorDiv):
                if not (isinstance(b, Const) and b.value > 0):
                    raise Unsupported('//')
                return V('nat', f'({self.nat(a)} / {self.nat(b)})')
            o = {ast.Mult: '*', ast.Add: '+', ast.Sub: '-'}[type(e.op)]
            # differences only occur in products that vanish with the minuend
            return V('nat', f'({self.nat(a)} {o} {self.nat(b)})')
        raise Unsupported(ast.unparse(e))

    def call(self, e):
        name = ast.unparse(e.func)
        kw = {k.arg: k.value for k in e.keywords}
        if name.startswith('self._logger') or name == 'logging.getLogger':
            raise Unsupported('logger in an expression')
        if isinstance(e.func, ast.Attribute) and ast.unparse(e.func.value) not in ('np', 'self'):
            v = self.expr(e.func.value)
            m = e.func.attr
            if isinstance(v, V) and v.t in ('nd', 'ndn') and m == 'astype' and len(e.args) == 1 and \
                    ast.unparse(e.args[0]) in ('float', 'np.float64') and v.t == 'nd':
                return v
            if isinstance(v, V) and v.t == 'ndn' and m == 'sum' and not e.args and not kw:
                return self.let('nat', f'NDArr.total {v.code}', False)
            if isinstance(v, V) and v.t == 'rng' and m == 'normal' and len(e.args) == 3 and not kw:
                a = [self.expr(x) for x in e.args]
                return self.let('reals', f'{v.code} {self.real(a[0])} {self.real(a[1])} {atom(self.nat(a[2]))}',
                                False)
            raise Unsupported(ast.unparse(e))
        args = [self.expr(a) for a in e.args]
        ts = [a.t if isinstance(a, V) else 'const' for a in args]
        if name == 'np.atleast_1d' and ts in (['nd'], ['ndn']) and not kw:
            return self.let(ts[0], f'NDArr.atleast1d {args[0].code}', False)
        if name == 'np.broadcast_to' and len(args) == 2 and ts[0] in ('nd', 'ndn') and not kw:
            return self.let(ts[0], f'NDArr.broadcastTo {args[0].code} {self.shape(args[1])}', True)
        if name in ('np.array', 'np.asarray') and ts in (['nd'], ['ndn']) and not kw:
            return args[0]
        if name == 'np.ones' and len(args) == 1 and not kw:
            return self.let('nd', f'NDArr.full {self.shape(args[0])} 1', False)
        if name == 'np.ones_like' and ts == ['nd'] and not kw:
            return self.let('nd', f'NDArr.full {args[0].code}.shape 1', False)
        if name == 'np.full' and len(args) == 2 and not kw:
            return self.let('nd', f'NDArr.full {self.shape(args[0])} {self.real(args[1])}', False)
        if name == 'np.exp' and ts == ['nd'] and not kw:
            return self.let('nd', f'NDArr.map Real.exp {args[0].code}', False)
        if name == 'np.repeat' and ts == ['nd', 'ndn'] and set(kw) == {'axis'}:
            return self.let('nd', f"NDArr.repeatBy {args[0].code} {args[1].code} {self.nat(self.expr(kw['axis']))}",
                            True)
        if name == 'len' and ts == ['shape']:
            return V('nat', f'{args[0].code}.length')
        if name == 'set' and ts == ['shape']:
            return V('shape', f'{args[0].code}.dedup')
        if name in self.world.functions:
            d = self.world.functions[name]
            if [t for t in ts] == d['types'] and not kw:
                return self.let(d['ret'], ' '.join([d['lean']] + [atom(a.code) for a in args]), True)
            if d.get('also') and [t for t in ts] == d['also']['types'] and not kw:
                d = d['also']
                return self.let(d['ret'], ' '.join([d['lean']] + [atom(a.code) for a in args]), True)
        if name == 'cls' and self.world.inits.get(self.cls):
            d = self.world.inits[self.cls]
            codes = []
            for (p, t), a in zip(d['params'], args):
                if isinstance(a, Const) and t == 'nd':
                    codes.append(f'(NDArr.scalar {self.real(a)})')
                elif isinstance(a, V) and a.t == t:
                    codes.append(atom(a.code))
                else:
                    raise Unsupported('constructor')
            if len(args) != len(d['params']) or kw:
                raise Unsupported('constructor')
            return self.let(d['ret'], ' '.join([d['lean']] + codes), True)
        raise Unsupported(ast.unparse(e))

    def condition(self, e):
        if isinstance(e, ast.Name) and isinstance(self.env.get(e.id), V) and self.env[e.id].t == 'bool':
            return f'{self.env[e.id].code} = true'
        if isinstance(e, ast.Compare) and len(e.ops) == 1 and type(e.ops[0]) in CMP:
            a, b = self.expr(e.left), self.expr(e.comparators[0])
            return f'{self.nat(a)} {CMP[type(e.ops[0])]} {self.nat(b)}'
        raise Unsupported(ast.unparse(e))

    # ------------------------------------------------------------ statements
    def is_log(self, s):
        if not isinstance(s, ast.Expr) or not is_message(s.value):
            return False
        if not message(s.value):
            raise Unsupported('message')
        return True

    def logger(self):
        if '_logger' not in self.attrs:
            self.emit('.error .attributeError')
            raise Raise

    def block(self, body):
        for k, s in enumerate(body):
            self.statement(s)

    def assign(self, t, v):
        if isinstance(t, ast.Name):
            if isinstance(v, Const):
                self.env[t.id] = v
                return
            self.emit(f'let {t.id}{self.suffix} : {ty(v.t)} := {v.code}')
            self.env[t.id] = V(v.t, t.id + self.suffix)
            return
        if isinstance(t, ast.Attribute) and ast.unparse(t.value) == 'self':
            setter = self.world.find_setter(self.cls, t.attr)
            if setter is not None:
                p = setter.args.args[1].arg
                sub = Fun(self.world, self.cls, {}, self.attrs, self.lines, self.depth, self.counter,
                          self.suffix + "'")
                sub.emit(f'let {p}{sub.suffix} : {ty(v.t)} := {v.code}')
                sub.env[p] = V(v.t, p + sub.suffix)
                sub.block(setter.body)
                return
            if self.world.find_property(self.cls, t.attr) is not None:
                raise Unsupported('assignment to a property without setter')
            if isinstance(v, Const):
                v = V('nat', self.nat(v))
            n = 'self' + ('' if t.attr.startswith('_') else '_') + t.attr
            self.emit(f'let {n} : {ty(v.t)} := {v.code}')
            self.attrs[t.attr] = V(v.t, n)
            return
        raise Unsupported(ast.unparse(t))

    def statement(self, s):
        if isinstance(s, ast.Pass) or isinstance(s, ast.Expr) and isinstance(s.value, ast.Constant):
            return
        if self.is_log(s):
            self.logger()
            return
        if isinstance(s, ast.Assign) and len(s.targets) == 1:
            t = s.targets[0]
            if ast.unparse(t) == 'self._logger':
                if not creation(s.value):
                    raise Unsupported('logger')
                self.attrs['_logger'] = None
                return
            if isinstance(t, ast.Tuple) and isinstance(s.value, ast.Call) and \
                    ast.unparse(s.value.func) == 'np.triu_indices' and len(t.elts) == 2:
                n, k = (self.expr(a) for a in s.value.args)
                p = self.fresh()
                self.emit(f'let {p} : List ℕ × List ℕ := triu {self.nat(n)} {self.nat(k)}')
                for m, x in enumerate(t.elts, 1):
                    self.env[x.id] = V('nats', f'{p}.{m}')
                return
            if isinstance(t, ast.Subscript):
                self.store(t, s.value)
                return
            v = self.expr(s.value)
            self.assign(t, v)
            return
        if isinstance(s, ast.Expr) and isinstance(s.value, ast.Call) and \
                ast.unparse(s.value.func) == 'super().__init__':
            self.super_init(s.value)
            return
        if isinstance(s, ast.Expr) and isinstance(s.value, ast.Call):
            self.method(s.value)
            return
        if isinstance(s, ast.If):
            self.branch(s)
            return
        if isinstance(s, ast.For):
            self.loop(s)
            return
        if isinstance(s, ast.Raise):
            self.emit(f'.error .{ERRORS[s.exc.func.id]}')
            raise Raise
        if isinstance(s, ast.Return):
            self.ret = self.expr(s.value)
            return
        raise Unsupported(ast.unparse(s))

    def method(self, c):
        """`obj.method(…)` for an object made by `cls(…)`: it changes the object."""
        if not (isinstance(c.func, ast.Attribute) and isinstance(c.func.value, ast.Name)):
            raise Unsupported(ast.unparse(c))
        if self.suffix:
            raise Unsupported('method call in a constructor')
        o = self.env.get(c.func.value.id)
        d = self.world.methods.get((self.cls, c.func.attr))
        if not (isinstance(o, V) and isinstance(o.t, tuple) and d):
            raise Unsupported(ast.unparse(c))
        given = dict(zip([p for p, _ in d['params']], c.args))
        given.update({k.arg: k.value for k in c.keywords})
        codes = []
        for p, t in d['params']:
            v = self.expr(given.pop(p))
            if not (isinstance(v, V) and v.t == t):
                raise Unsupported('argument')
            codes.append(atom(v.code))
        if given:
            raise Unsupported('argument')
        n = c.func.value.id
        self.emit(f"let {n} : {ty(o.t)} ← {' '.join([d['lean'], n] + codes)}")

    def store(self, t, value):
        if not (isinstance(t.value, ast.Attribute) and ast.unparse(t.value.value) == 'self'):
            raise Unsupported('item assignment')
        a = self.attribute(t.value.attr)
        v = self.expr(value)
        sl = t.slice
        if isinstance(sl, ast.Slice) and not (sl.lower or sl.upper or sl.step):
            code, mon = f'NDArr.full {a.code}.shape {self.real(v)}', False
        elif isinstance(sl, ast.Call) and ast.unparse(sl.func) == 'np.diag_indices_from' and \
                ast.unparse(sl.args[0]) == ast.unparse(t.value):
            code, mon = f'NDArr.setDiag {a.code} {self.real(v)}', False
        elif isinstance(sl, ast.Tuple) and len(sl.elts) == 2 and v.t == 'reals':
            i, j = (self.expr(x) for x in sl.elts)
            if not (i.t == j.t == 'nats'):
                raise Unsupported('indices')
            code, mon = f'NDArr.assignAt {a.code} {i.code} {j.code} {v.code}', True
        else:
            raise Unsupported('item assignment')
        n = a.code
        self.emit(f"let {n} : NDArr ℝ {'←' if mon else ':='} {code}")

    def super_init(self, c):
        base = self.world.base(self.world.where(self.cls, '__init__', self.current))
        owner = self.world.where(base, '__init__')
        node = self.world.classes[owner]['methods']['__init__']
        names = [a.arg for a in node.args.args[1:]]
        given = dict(zip(names, c.args))
        given.update({k.arg: k.value for k in c.keywords})
        env = {}
        sub = Fun(self.world, self.cls, env, self.attrs, self.lines, self.depth, self.counter,
                  self.suffix + "'")
        sub.current = owner
        vals = {n: self.expr(given.pop(n)) for n in names if n in given}
        if given:
            raise Unsupported('argument')
        for n in names:
            if n not in vals:
                raise Unsupported('default of a base class')
            v = vals[n]
            sub.emit(f'let {n}{sub.suffix} : {ty(v.t)} := {v.code}')
            env[n] = V(v.t, n + sub.suffix)
        sub.block(node.body)

    def branch(self, s):
        t = s.test
        # the second condition is evaluated when the first one is false
        if isinstance(t, ast.BoolOp) and isinstance(t.op, ast.Or) and not s.orelse and \
                isinstance(s.body[-1], ast.Raise):
            for x in t.values:
                self.branch(ast.If(test=x, body=s.body, orelse=[]))
            return
        # a warning: nothing happens, but the logger must exist
        if all(self.is_log(x) for x in s.body) and not s.orelse and isinstance(t, ast.UnaryOp) and \
                isinstance(t.op, ast.Not) and isinstance(t.operand, ast.Call):
            f = ast.unparse(t.operand.func)
            if f == 'np.isclose' and '_logger' in self.attrs:
                a, b = t.operand.args
                if not (isinstance(a, ast.Call) and isinstance(a.func, ast.Attribute) and not a.args and
                        not a.keywords and self.expr(a.func.value).t == 'nd' and a.func.attr == 'sum' and
                        isinstance(b, ast.Constant)):
                    raise Unsupported('isclose')
                return
            if f == 'np.allclose' and len(t.operand.args) == 2 and not t.operand.keywords:
                a, b = (self.expr(x) for x in t.operand.args)
                if not (isinstance(a, V) and isinstance(b, V) and a.t == b.t == 'nd'):
                    raise Unsupported('allclose')
                if '_logger' not in self.attrs:
                    self.emit(f'if ¬NDArr.allclose {a.code} {b.code} then .error .attributeError')
                return
            raise Unsupported(f)
        if isinstance(t, ast.Compare) and isinstance(t.ops[0], ast.Is) and \
                isinstance(t.comparators[0], ast.Constant) and t.comparators[0].value is None:
            n = t.left.id
            v = self.env[n]
            if isinstance(v, V) and v.t == 'rng':
                if [ast.unparse(x) for x in s.body] != [f'{n} = np.random.default_rng()'] or s.orelse:
                    raise Unsupported('default generator')
                return  # a generator is given
            if not (isinstance(v, V) and v.t == 'optnd'):
                raise Unsupported('None')
            heads = [f'match {v.code} with', '| none =>', f'| some {n}{self.suffix} =>']
            envs = [{k: x for k, x in self.env.items() if k != n}, {**self.env, n: V('nd', n + self.suffix)}]
        else:
            c = self.condition(t)
            heads = [None, f'if {c} then', 'else']
            envs = [dict(self.env), dict(self.env)]
        subs = []
        for body, env in ((s.body, envs[0]), (s.orelse, envs[1])):
            sub = Fun(self.world, self.cls, env, dict(self.attrs), [], self.depth + 2, self.counter,
                      self.suffix)
            sub.current = self.current
            sub.raises = False
            try:
                sub.block(body)
            except Raise:
                sub.raises = True
            if sub.ret is not None:
                raise Unsupported('return in a branch')
            subs.append(sub)
        live = [x for x in subs if not x.raises]

        def changed(x, body):
            names = {n.id for st in body for y in ast.walk(st) if isinstance(y, ast.Assign)
                     for tg in y.targets for n in ([tg] if isinstance(tg, ast.Name) else [])}
            return [('env', k) for k in x.env if k in names] + \
                [('attr', k) for k, v in x.attrs.items() if k not in self.attrs or v is not self.attrs[k]]
        keys = []
        # variables assigned in every branch that goes on; the others are forgotten
        bodies = [(x, body) for x, body in zip(subs, (s.body, s.orelse)) if not x.raises]
        for key in dict.fromkeys(k for x, body in bodies for k in changed(x, body)):
            got = [(x.env if key[0] == 'env' else x.attrs).get(key[1]) for x in live]
            if all(isinstance(g, V) for g in got) and len({g.t for g in got}) == 1:
                keys.append((key, got[0].t))
            else:
                (self.env if key[0] == 'env' else self.attrs).pop(key[1], None)
        stored = [k for k in dict.fromkeys(ast.unparse(x.targets[0].value) for b in (s.body, s.orelse)
                                           for x in b if isinstance(x, ast.Assign) and
                                           isinstance(x.targets[0], ast.Subscript))]
        for k in stored:
            name = k[5:]
            if (('attr', name), 'nd') not in keys:
                keys.append((('attr', name), 'nd'))
        if not keys and len(live) == 2:
            raise Unsupported('branch without effect')
        names = [(x[1] + self.suffix if x[0] == 'env' else 'self' + ('' if x[1].startswith('_') else '_') + x[1], t)
                 for x, t in keys]
        tup = ' × '.join(ty(t) for _, t in names) or 'Unit'
        res = self.fresh()
        self.emit(f'let {res} : {tup} ←')
        if heads[0]:
            self.emit('  ' + heads[0])
        for head, sub in zip(heads[1:], subs):
            self.emit('  ' + head + ('' if head.endswith('else') or head.endswith('then') else ' do')
                      + (' do' if head.endswith('else') or head.endswith('then') else ''))
            self.lines += sub.lines
            if not sub.raises:
                codes = [(sub.env if x[0] == 'env' else sub.attrs)[x[1]].code for x, _ in keys]
                self.lines.append('  ' * sub.depth + 'pure ' + ('(' + ', '.join(codes) + ')' if len(codes) != 1
                                                                else codes[0]))
        for k, ((key, t), (n, _)) in enumerate(zip(keys, names)):
            proj = res if len(keys) == 1 else res + '.2' * k + ('.1' if k < len(keys) - 1 else '')
            self.emit(f'let {n} : {ty(t)} := {proj}')
            (self.env if key[0] == 'env' else self.attrs)[key[1]] = V(t, n)
        if not live:
            raise Raise

    def loop(self, s):
        if not (isinstance(s.iter, ast.Call) and ast.unparse(s.iter.func) == 'range' and
                len(s.iter.args) == 1 and len(s.body) == 1 and isinstance(s.body[0], ast.Assign) and
                isinstance(s.body[0].targets[0], ast.Name)):
            raise Unsupported('loop')
        n = self.nat(self.expr(s.iter.args[0]))
        name = s.body[0].targets[0].id
        v = self.env[name]
        i = s.target.id
        r = self.fresh()
        self.emit(f'let {r} : {ty(v.t)} ← forListM (List.range {atom(n)}) {v.code} fun {i} {name} => do')
        if self.suffix:
            raise Unsupported('loop in a constructor')
        sub = Fun(self.world, self.cls, {**self.env, i: V('nat', i), name: V(v.t, name)}, self.attrs,
                  self.lines, self.depth + 1, self.counter)
        sub.block(s.body)
        sub.emit(f'pure {sub.env[name].code}')
        self.emit(f'let {name} : {ty(v.t)} := {r}')
        self.env[name] = V(v.t, name)


class World:
    def __init__(self, repo):
        self.classes, self.functions, self.inits, self.methods, self.repo = {}, {}, {}, {}, repo
        self.trees = {}

    def load(self, file):
        tree = ast.parse(open(os.path.join(self.repo, file)).read())
        self.trees[file] = tree
        for c in tree.body:
            if isinstance(c, ast.ClassDef):
                m, props, setters = {}, {}, {}
                for f in c.body:
                    if isinstance(f, ast.FunctionDef):
                        decs = [ast.unparse(d) for d in f.decorator_list]
                        if decs == ['property']:
                            props[f.name] = f
                        elif any(d.endswith('.setter') for d in decs):
                            setters[f.name] = f
                        else:
                            m[f.name] = f
                self.classes[c.name] = {'bases': [ast.unparse(b) for b in c.bases], 'methods': m,
                                        'props': props, 'setters': setters, 'file': file}

    def base(self, cls):
        (b,) = self.classes[cls]['bases']
        return b

    def chain(self, cls):
        while cls in self.classes:
            yield cls
            bs = self.classes[cls]['bases']
            if not bs:
                return
            cls = bs[0]

    def where(self, cls, method, start=None):
        if start:
            return start
        for c in self.chain(cls):
            if method in self.classes[c]['methods']:
                return c
        raise Unsupported(f'{cls}.{method}')

    def find_property(self, cls, name):
        if cls is None:
            return None
        for c in self.chain(cls):
            if name in self.classes[c]['props']:
                return self.classes[c]['props'][name]
        return None

    def find_setter(self, cls, name):
        for c in self.chain(cls):
            if name in self.classes[c]['setters']:
                return self.classes[c]['setters'][name]
        return None


FILES = ['flory/common/utilities.py', 'flory/interaction/base.py', 'flory/interaction/flory_huggins.py',
         'flory/interaction/flory_huggins_block.py', 'flory/entropy/base.py', 'flory/entropy/ideal_gas.py',
         'flory/entropy/ideal_gas_polydispersed.py', 'flory/ensemble/base.py', 'flory/ensemble/canonical.py',
         'flory/ensemble/grandcanonical.py', 'flory/constraint/base.py', 'flory/constraint/linear_local.py',
         'flory/constraint/linear_global.py', 'flory/common/phases.py']

# what is transcribed: function, constructor, setter, method or class method, with the types of arguments
ITEMS = [
    ('function', 'flory/common/utilities.py', 'convert_and_broadcast', [('arr', 'nd'), ('shape', 'shape')], ''),
    ('function', 'flory/common/utilities.py', 'convert_and_broadcast', [('arr', 'ndn'), ('shape', 'shape')],
     '_nat'),
    ('function', 'flory/common/utilities.py', 'make_square_blocks', [('arr', 'nd'), ('block_sizes', 'ndn')], ''),
    ('init', 'FloryHugginsInteraction', [('num_comp', 'nat'), ('chis', 'nd')]),
    ('setter', 'FloryHugginsInteraction', 'chis', 'nd'),
    ('method', 'FloryHugginsInteraction', 'set_uniform_chis', [('chi', 'real'), ('vanishing_diagonal', 'bool')]),
    ('method', 'FloryHugginsInteraction', 'set_random_chis',
     [('chi_mean', 'real'), ('chi_std', 'real'), ('vanishing_diagonal', 'bool'), ('rng', 'rng')]),
    ('class', 'FloryHugginsInteraction', 'from_uniform',
     [('num_comp', 'nat'), ('chi', 'real'), ('vanishing_diagonal', 'bool')]),
    ('class', 'FloryHugginsInteraction', 'from_random_normal',
     [('num_comp', 'nat'), ('chi_mean', 'real'), ('chi_std', 'real'), ('vanishing_diagonal', 'bool'),
      ('rng', 'rng')]),
    ('init', 'FloryHugginsBlockInteraction',
     [('num_feat', 'nat'), ('chis_feat', 'nd'), ('num_comp_per_feat', 'ndn')]),
    ('setter', 'FloryHugginsBlockInteraction', 'chis_feat', 'nd'),
    ('init', 'IdealGasEntropy', [('num_comp', 'nat'), ('sizes', 'optnd')]),
    ('setter', 'IdealGasEntropy', 'sizes', 'nd'),
    ('init', 'IdealGasPolydispersedEntropy',
     [('num_feat', 'nat'), ('sizes', 'optnd'), ('num_comp_per_feat', 'ndn')]),
    ('setter', 'IdealGasPolydispersedEntropy', 'sizes', 'nd'),
    ('init', 'CanonicalEnsemble', [('num_comp', 'nat'), ('phi_means', 'optnd')]),
    ('setter', 'CanonicalEnsemble', 'phi_means', 'nd'),
    ('init', 'GrandCanonicalEnsemble', [('num_comp', 'nat'), ('scaled_activity', 'nd')]),
    ('setter', 'GrandCanonicalEnsemble', 'scaled_activity', 'nd'),
    ('class', 'GrandCanonicalEnsemble', 'from_chemical_potential',
     [('num_comp', 'nat'), ('mus', 'nd'), ('sizes', 'optnd')]),
    ('init', 'LinearLocalConstraint', [('num_feat', 'nat'), ('Cs', 'nd'), ('Ts', 'nd')]),
    ('setter', 'LinearLocalConstraint', 'Cs', 'nd'),
    ('setter', 'LinearLocalConstraint', 'Ts', 'nd'),
    ('init', 'LinearGlobalConstraint', [('num_feat', 'nat'), ('Cs', 'nd'), ('Ts', 'nd')]),
    ('setter', 'LinearGlobalConstraint', 'Cs', 'nd'),
    ('setter', 'LinearGlobalConstraint', 'Ts', 'nd'),
    ('init', 'Phases', [('volumes', 'nd'), ('fractions', 'nd')]),
]


def cite(file, node):
    line = min([node.lineno] + [d.lineno for d in node.decorator_list])
    return f'`{file}:{line}-{node.end_lineno}`'


def binders(params):
    return ' '.join(f'({n} : {ty(t)})' for n, t in params)


def emit_def(out, doc, name, params, ret, lines):
    out.append(f'/-- {doc} -/')
    out.append(f'noncomputable def {name} {binders(params)} :')
    out.append(f'    Py ({ty(ret)}) := do')
    out += lines + ['']


def record(attrs, cls):
    return '{ ' + ', '.join(f'{a} := {v.code}' for a, v in attrs.items() if v is not None) + ' }'


def build(repo, more=()):
    """The definitions, and the classes with what is known about them afterwards."""
    w = World(repo)
    for f in FILES + list(more):
        w.load(f)
    out = ['import Verif.Model.TranscriptObjects', '', '/-!',
           '# Transcription of constructors, setters and array utilities', '',
           'Written by `tools/transcribe_objects.py`; do not edit.', '-/', '',
           'set_option linter.unusedVariables false', '', 'namespace Flory.Gen', '']
    for it in ITEMS:
        if it[0] == 'function':
            _, file, name, params, suffix = it
            (node,) = [x for x in w.trees[file].body if isinstance(x, ast.FunctionDef) and x.name == name]
            if [a.arg for a in node.args.args] != [p for p, _ in params]:
                raise Unsupported('parameters')
            f = Fun(w, None, {p: V(t, p) for p, t in params}, {})
            f.block(node.body)
            f.emit(f'pure {f.ret.code}')
            emit_def(out, f'`{name}` ({cite(file, node)}).', name + suffix, params, f.ret.t, f.lines)
            d = {'lean': name + suffix, 'types': [t for _, t in params], 'ret': f.ret.t}
            if name in w.functions:
                w.functions[name]['also'] = d
            else:
                w.functions[name] = d
            continue
        cls = it[1]
        file = w.classes[cls]['file']
        if it[0] == 'init':
            params = it[2]
            owner = w.where(cls, '__init__')
            node = w.classes[owner]['methods']['__init__']
            if [a.arg for a in node.args.args[1:]] != [p for p, _ in params]:
                raise Unsupported('parameters')
            attrs = {}
            f = Fun(w, cls, {p: V(t, p) for p, t in params}, attrs)
            f.current = owner
            f.block(node.body)
            w.classes[cls]['attrs'] = dict(f.attrs)
            rec = (cls, f'{cls}Attrs', tuple((a, v.t) for a, v in f.attrs.items() if v is not None))
            w.classes[cls]['record'] = rec
            c = cite(w.classes[owner]['file'], node)
            out.append(f'/-- Attributes of a `{cls}` object after its constructor ({c}). -/')
            out.append(f'structure {cls}Attrs where')
            out += [f'  {a} : {ty(t)}' for a, t in rec[2]] + ['']
            f.emit(f'pure {record(f.attrs, cls)}')
            emit_def(out, f'`{cls}.__init__` ({c}).', f'{cls}.init', params, rec, f.lines)
            w.inits[cls] = {'lean': f'{cls}.init', 'params': params, 'ret': rec}
            continue
        rec = w.classes[cls]['record']
        if it[0] in ('setter', 'method'):
            if it[0] == 'setter':
                node = w.find_setter(cls, it[2])
                params, lean = [(node.args.args[1].arg, it[3])], f'{cls}.set_{it[2]}'
            else:
                node = w.classes[cls]['methods'][it[2]]
                params, lean = it[3], f'{cls}.{it[2]}'
                if [a.arg for a in node.args.args[1:] + node.args.kwonlyargs] != [p for p, _ in params]:
                    raise Unsupported('parameters')
            attrs, pre = {}, []
            for a, v in w.classes[cls]['attrs'].items():
                if v is None:
                    attrs[a] = None
                else:
                    n = 'self' + ('' if a.startswith('_') else '_') + a
                    pre.append(f'  let {n} : {ty(v.t)} := self.{a}')
                    attrs[a] = V(v.t, n)
            f = Fun(w, cls, {p: V(t, p) for p, t in params}, attrs)
            f.lines += pre
            try:
                f.block(node.body)
                f.emit(f'pure {record(f.attrs, cls)}')
            except Raise:
                pass
            if set(f.attrs) != set(w.classes[cls]['attrs']):
                raise Unsupported('new attribute')
            what = f'`{cls}.{it[2]}` setter' if it[0] == 'setter' else f'`{cls}.{it[2]}`'
            emit_def(out, f"{what} ({cite(file, node)}).", lean, [('self', rec)] + params, rec, f.lines)
            if it[0] == 'method':
                w.methods[(cls, it[2])] = {'lean': lean, 'params': params}
        else:
            node = w.classes[cls]['methods'][it[2]]
            params = it[3]
            if [a.arg for a in node.args.args[1:] + node.args.kwonlyargs] != [p for p, _ in params]:
                raise Unsupported('parameters')
            f = Fun(w, cls, {p: V(t, p) for p, t in params}, {})
            f.block(node.body)
            f.emit(f'pure {f.ret.code}')
            emit_def(out, f'`{cls}.{it[2]}` ({cite(file, node)}).', f'{cls}.{it[2]}', params, f.ret.t, f.lines)
    out.append('end Flory.Gen')
    return w, out


def run(repo):
    return '\n'.join(build(repo)[1]) + '\n'


def main():
    repo, out = '/repo', os.path.join(os.path.dirname(__file__), '..', 'lean', 'Verif', 'Gen')
    a = sys.argv[1:]
    if '--repo' in a:
        repo = a[a.index('--repo') + 1]
    if '--out' in a:
        out = a[a.index('--out') + 1]
    os.makedirs(out, exist_ok=True)
    loggers(repo)
    text = run(repo)
    p = os.path.join(out, 'Objects.lean')
    if '--check' in a:
        bad = not os.path.exists(p) or open(p).read() != text
        print('1 modules,', int(bad), 'differ')
        sys.exit(bad)
    open(p, 'w').write(text)


if __name__ == '__main__':
    main()
