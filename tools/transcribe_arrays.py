"""Transcribe the array code of the free energies and phases into Lean definitions.

    python3 tools/transcribe_arrays.py            write lean/Verif/Gen/*.lean
    python3 tools/transcribe_arrays.py --check    compare with the committed files
    python3 tools/transcribe_arrays.py --repo DIR --out DIR

This code works on numpy arrays with any number of leading axes, written `...` in the source.  There
are two kinds of functions.

* `item`: the numeric implementations (`_energy_impl` and so on).  All their operations act on the
  trailing axes and treat the leading axes alike, so they become functions of the item at one leading
  index.
* `rows`: the public methods.  An array with leading axes is a value of type `Rows`; the implementations
  are applied with `Rows.map`, two arrays are combined with `Rows.zip2`, which broadcasts their leading
  axes as numpy does.

Elements are real numbers (`R`), or floating-point numbers with infinities and NaN (`X`): quotients and
logarithms.  Optional arguments are specialised: a function is transcribed once for each form given in
`UNITS`, and tests of such arguments are decided during the transcription.  Anything not understood
raises an error.
"""
import ast, os, sys
from fractions import Fraction

sys.path.insert(0, os.path.dirname(os.path.abspath(__file__)))
from messages import is_message, loggers, message


class Unsupported(Exception):
    pass


NAMES = 'ijklmn'
TYPE = {'R': 'ℝ', 'X': 'XReal', 'N': 'ℕ', 'B': 'Bool'}


def lean_type(elem, dims):
    t = TYPE[elem]
    if len(dims) == 0:
        return t
    if len(dims) == 1:
        return f'Vec {atom(dims[0])} {t}'
    if len(dims) == 2:
        return f'Mat {atom(dims[0])} {atom(dims[1])} {t}'
    raise Unsupported(f'array with trailing axes {dims}')


def atom(s):
    return f'({s})' if ' ' in s else s


class E:
    """An array with known trailing axes: `at` gives the code of the entry at given indices."""

    def __init__(self, elem, dims, at):
        self.elem, self.dims, self.at = elem, tuple(dims), at

    def as_elem(self, elem, idx):
        c = self.at(idx)
        if self.elem == elem:
            return c
        if self.elem == 'R' and elem == 'X':
            return f'(fin {c})'
        raise Unsupported(f'{self.elem} used as {elem}')

    def code(self, elem=None, depth=0):
        idx = [f'{NAMES[k]}' for k in range(len(self.dims))]
        c = self.as_elem(elem or self.elem, idx)
        if (elem or self.elem) == 'B':
            c = f'decide {c}'
        return f"fun {' '.join(idx)} => {c}" if idx else c


def variable(name, elem, dims):
    return E(elem, dims, lambda idx: f"({name} {' '.join(idx)})" if idx else name)


class R:
    """An array with leading axes: the item of the array `base` goes through `f`."""

    def __init__(self, base, elem0, dims0, f=None):
        self.base, self.elem0, self.dims0 = base, elem0, tuple(dims0)
        self.plain = f is None
        self.f = f or (lambda e: e)

    def item(self, name):
        return self.f(variable(name, self.elem0, self.dims0))

    def then(self, g):
        return R(self.base, self.elem0, self.dims0, lambda e, f=self.f: g(f(e)))

    def code(self):
        if self.plain:
            return self.base
        return f"{self.base}.map fun x => {wrap(self.item('x').code())}"


def wrap(c):
    return f'({c})' if c.startswith('fun ') else c


class ND:
    """An argument that may be any array."""

    def __init__(self, name):
        self.name = name


class Const:
    """A value known during the transcription."""

    def __init__(self, value):
        self.value = value


class Int:
    def __init__(self, code):
        self.code = code


class Fin:
    def __init__(self, name, dim):
        self.name, self.dim = name, dim


class Obj:
    def __init__(self, code, cls):
        self.code, self.cls = code, cls


class Shape:
    def __init__(self, nd=None, dims=None):
        self.nd, self.dims = nd, dims


class Opaque:
    def __init__(self, code, ty):
        self.code, self.ty = code, ty


def number(x):
    q = Fraction(str(x)) if isinstance(x, float) else Fraction(x)
    s = f'{q.numerator}' if q.denominator == 1 else f'({q.numerator} / {q.denominator})'
    return f'(-{-q.numerator})' if q < 0 and q.denominator == 1 else s


def broadcast(a, b):
    n = max(len(a.dims), len(b.dims))
    da = ('1',) * (n - len(a.dims)) + a.dims
    db = ('1',) * (n - len(b.dims)) + b.dims
    out = []
    for x, y in zip(da, db):
        if x == y or y == '1':
            out.append(x)
        elif x == '1':
            out.append(y)
        else:
            raise Unsupported(f'shapes {a.dims} and {b.dims}')

    def pick(e):
        def at(idx):
            own = idx[n - len(e.dims):]
            return [('0' if d == '1' else i) for d, i in zip(e.dims, own)]
        return at
    return tuple(out), pick(a), pick(b)


def arith(op, a, b):
    dims, pa, pb = broadcast(a, b)
    kinds = (a.elem, b.elem)
    if op in ('+', '-'):
        elem = 'R' if kinds == ('R', 'R') else 'X'
        return E(elem, dims, lambda idx: f'({a.as_elem(elem, pa(idx))} {op} {b.as_elem(elem, pb(idx))})')
    if op == '*':
        if kinds == ('R', 'R'):
            return E('R', dims, lambda idx: f'({a.at(pa(idx))} * {b.at(pb(idx))})')
        if kinds == ('X', 'R'):
            return E('X', dims, lambda idx: f'(XReal.mulR {a.at(pa(idx))} {b.at(pb(idx))})')
        if kinds == ('R', 'X'):
            return E('X', dims, lambda idx: f'(XReal.mulR {b.at(pb(idx))} {a.at(pa(idx))})')
    if op == '/' and b.elem == 'R' and a.elem in 'RX':
        return E('X', dims, lambda idx: f"(XReal.divR {a.as_elem('X', pa(idx))} {b.at(pb(idx))})")
    raise Unsupported(f'{kinds[0]} {op} {kinds[1]}')


def compare(op, a, b):
    dims, pa, pb = broadcast(a, b)
    if a.elem not in 'RN' or b.elem not in 'RN':
        raise Unsupported('comparison')
    return E('B', dims, lambda idx: f'({a.at(pa(idx))} {op} {b.at(pb(idx))})')


def total(e):
    """Sum over the last trailing axis."""
    if not e.dims:
        raise Unsupported('sum over a leading axis')
    v = f's{len(e.dims)}'
    if e.elem == 'X':
        return E('X', e.dims[:-1], lambda idx: f'(XReal.sum fun {v} => {e.at(idx + [v])})')
    if e.elem == 'R':
        return E('R', e.dims[:-1], lambda idx: f'(∑ {v}, {e.at(idx + [v])})')
    if e.elem == 'B':
        return E('N', e.dims[:-1], lambda idx: f'(∑ {v}, if {e.at(idx + [v])} then 1 else 0)')
    raise Unsupported('sum')


OPS = {ast.Add: '+', ast.Sub: '-', ast.Mult: '*', ast.Div: '/'}
CMP = {ast.Lt: '<', ast.Eq: '=', ast.LtE: '≤', ast.Gt: '>', ast.NotEq: '≠', ast.GtE: '≥'}
ERRORS = {'VolumeFractionError': 'volumeFractionError', 'ValueError': 'valueError'}


class Fun:
    def __init__(self, unit, node, spec):
        self.unit, self.node, self.spec = unit, node, spec
        self.lines, self.env, self.count, self.loops = [], {}, 0, 0
        self.rows = spec['kind'] == 'rows'
        self.result = None

    def emit(self, s):
        self.lines.append('  ' * (1 + self.loops) + s)

    def fresh(self, base='t'):
        self.count += 1
        return f'{base}{self.count}'

    # ------------------------------------------------------------ expressions
    def const(self, v):
        return E('R', (), lambda idx: number(v))

    def lift1(self, v, g):
        if isinstance(v, R):
            return v.then(g)
        if isinstance(v, E):
            return g(v)
        raise Unsupported(f'operand {type(v).__name__}')

    def array(self, v):
        if isinstance(v, Const) and isinstance(v.value, (int, float)) and not isinstance(v.value, bool):
            return self.const(v.value)
        if isinstance(v, (E, R)):
            return v
        if isinstance(v, ND) and self.rows:
            return self.as_rows(v)
        raise Unsupported(f'not an array: {type(v).__name__}')

    def as_rows(self, v):
        if isinstance(v, R):
            return v
        if isinstance(v, ND):
            return R(f'(rowsOf C {v.name})', 'R', ('C',))
        raise Unsupported('not an array with leading axes')

    def binary(self, g, a, b):
        a, b = self.array(a), self.array(b)
        if isinstance(a, E) and isinstance(b, E):
            return g(a, b)
        if isinstance(a, R) and isinstance(b, E):
            if len(b.dims) > len(a.item('x').dims):
                raise Unsupported('broadcast into the leading axes')
            return a.then(lambda x: g(x, b))
        if isinstance(a, E) and isinstance(b, R):
            if len(a.dims) > len(b.item('x').dims):
                raise Unsupported('broadcast into the leading axes')
            return b.then(lambda x: g(a, x))
        x, y = a.item('x'), b.item('y')
        if len(x.dims) != len(y.dims):
            raise Unsupported('broadcast into the leading axes')
        r = g(x, y)
        t = self.fresh()
        self.emit(f"let {t} : Rows ({lean_type(r.elem, r.dims)}) ← Rows.zip2 (fun x y => {r.code()}) "
                  f'{atom(a.base)} {atom(b.base)}')
        return R(t, r.elem, r.dims)

    def index(self, v, dim):
        """Code of an index below `dim`."""
        if isinstance(v, Fin):
            if v.dim != dim:
                raise Unsupported('index of another axis')
            return v.name
        if isinstance(v, Const) and isinstance(v.value, int) and not isinstance(v.value, bool):
            v = Int(number(v.value))
        if isinstance(v, Int):
            if not self.rows:
                raise Unsupported('index')
            k = self.fresh('k')
            self.emit(f'let {k} ← normIndex {atom(dim)} {v.code}')
            return k
        raise Unsupported('index')

    def subscript(self, v, items):
        """`v[..., items]`"""
        if not (items and isinstance(items[0], ast.Constant) and items[0].value is Ellipsis):
            raise Unsupported('subscript without leading ellipsis')
        v = self.array(v)
        e0 = v.item('x') if isinstance(v, R) else v
        plan, used = [], 0
        for it in reversed(items[1:]):
            if isinstance(it, ast.Constant) and it.value is None:
                plan.append(('new',))
            else:
                used += 1
                if used > len(e0.dims):
                    raise Unsupported('index into the leading axes')
                d = e0.dims[len(e0.dims) - used]
                if isinstance(it, ast.Slice):
                    if it.lower or it.upper or it.step:
                        raise Unsupported('slice')
                    plan.append(('keep', d))
                else:
                    plan.append(('at', self.index(self.expr(it), d)))
        plan.reverse()

        def g(e):
            n0 = len(e.dims) - used
            dims = e.dims[:n0] + tuple('1' if p[0] == 'new' else p[1] for p in plan if p[0] != 'at')

            def at(idx):
                own, rest = list(idx[:n0]), list(idx[n0:])
                for p in plan:
                    if p[0] == 'at':
                        own.append(p[1])
                    else:
                        i = rest.pop(0)
                        if p[0] == 'keep':
                            own.append(i)
                return e.at(own)
            return E(e.elem, dims, at)
        return self.lift1(v, g)

    def delete(self, v, index, axis):
        v = self.array(v)
        e0 = v.item('x') if isinstance(v, R) else v
        if not (isinstance(axis, int) and -len(e0.dims) <= axis < 0):
            raise Unsupported('axis')
        d = e0.dims[axis]
        k = self.index(index, d)

        def g(e):
            dims = list(e.dims)
            dims[axis] = f'{d} - 1'

            def at(idx):
                own = list(idx)
                own[axis] = f'(skipAt {k} {own[axis]})'
                return e.at(own)
            return E(e.elem, dims, at)
        return self.lift1(v, g)

    def static(self, e):
        v = self.expr(e)
        if isinstance(v, Const):
            return v.value
        raise Unsupported(f'not known: {ast.unparse(e)}')

    def keywords(self, call, names):
        kw = {k.arg: k.value for k in call.keywords}
        for k in kw:
            if k not in names:
                raise Unsupported(f'argument {k}')
        return kw

    def expr(self, e):
        if isinstance(e, ast.Constant):
            return Const(e.value)
        if isinstance(e, ast.Name):
            if e.id not in self.env:
                raise Unsupported(f'unknown variable {e.id}')
            return self.env[e.id]
        if isinstance(e, ast.UnaryOp) and isinstance(e.op, ast.USub):
            v = self.expr(e.operand)
            if isinstance(v, Const):
                return Const(-v.value)
            return self.lift1(self.array(v), lambda x: E(x.elem, x.dims, lambda idx: f'(-{x.at(idx)})'))
        if isinstance(e, ast.IfExp):
            return self.expr(e.body if self.static(e.test) else e.orelse)
        if isinstance(e, ast.BinOp):
            a, b = self.expr(e.left), self.expr(e.right)
            if isinstance(e.op, ast.MatMult):
                return self.matmul(a, b)
            if type(e.op) not in OPS:
                raise Unsupported(ast.unparse(e))
            return self.binary(lambda x, y: arith(OPS[type(e.op)], x, y), a, b)
        if isinstance(e, ast.Compare) and len(e.ops) == 1:
            a, b = self.expr(e.left), self.expr(e.comparators[0])
            if isinstance(e.ops[0], ast.Is) and isinstance(b, Const) and b.value is None:
                return Const(isinstance(a, Const) and a.value is None)
            if type(e.ops[0]) not in CMP:
                raise Unsupported(ast.unparse(e))
            op = CMP[type(e.ops[0])]
            if isinstance(a, Opaque) and isinstance(b, Opaque) and a.ty == b.ty == 'nat':
                return Opaque(f'{a.code} {op} {b.code}', 'prop')
            if isinstance(a, ND) and isinstance(b, Const):
                return Opaque(f'(fun x => x {op} {number(b.value)}) {a.name}', 'test')
            return self.binary(lambda x, y: compare(op, x, y), a, b)
        if isinstance(e, ast.Subscript):
            return self.item(e)
        if isinstance(e, ast.Attribute):
            return self.attribute(e)
        if isinstance(e, ast.Call):
            return self.call(e)
        raise Unsupported(ast.unparse(e))

    def matmul(self, a, b):
        def g(x, y):
            if len(x.dims) == 1 and len(y.dims) == 2 and x.dims[0] == y.dims[0] and \
                    x.elem == y.elem == 'R':
                return E('R', (y.dims[1],),
                         lambda idx: f"(∑ s, ({x.at(['s'])} * {y.at(['s'] + idx)}))")
            raise Unsupported('@')
        if isinstance(a, (E, R)) and isinstance(b, E):
            return self.lift1(a, lambda x: g(x, b))
        raise Unsupported('@')

    def item(self, e):
        v = self.expr(e.value)
        if isinstance(v, Shape) and v.nd:
            k = self.expr(e.slice)
            code = k.code if isinstance(k, Int) else number(k.value)
            t = self.fresh()
            self.emit(f'let {t} ← shapeAt {v.nd}.shape {atom(code)}')
            return Opaque(t, 'nat')
        items = list(e.slice.elts) if isinstance(e.slice, ast.Tuple) else [e.slice]
        return self.subscript(v, items)

    def attribute(self, e):
        if ast.unparse(e) == 'np.nan':
            return E('X', (), lambda idx: 'nan')
        v = self.expr(e.value)
        if isinstance(v, Obj):
            info = self.unit['classes'][v.cls]
            if e.attr in info.get('props', {}):
                return self.apply(info['props'][e.attr], v, [])
            f = info['fields'].get(e.attr)
            if f is None:
                raise Unsupported(f'attribute {e.attr}')
            kind = f[0]
            if kind == 'dim':
                return Opaque(f[1], 'nat')
            if kind == 'arr':
                return variable(f'{v.code}.{f[1]}' if v.code else f[1], 'R', f[2])
            if kind == 'obj':
                return Obj(f'{v.code}.{f[1]}', f[2])
        if e.attr == 'shape':
            if isinstance(v, ND):
                return Shape(nd=v.name)
            if isinstance(v, E):
                return Shape(dims=v.dims)
        raise Unsupported(ast.unparse(e))

    def apply(self, fname, obj, args):
        """Call of a function transcribed before, for the form of the arguments."""
        forms = [('none' if isinstance(a, Const) and a.value is None else
                  f'{a.value}' if isinstance(a, Const) and isinstance(a.value, bool) else
                  'int' if isinstance(a, (Int, Const)) else
                  'nd' if isinstance(a, ND) else 'item' if isinstance(a, E) else
                  'rows' if isinstance(a, R) else 'other') for a in args]
        for d in self.unit['done']:
            if d['py'] != fname or d['cls'] != obj.cls:
                continue
            given = list(forms)
            full = [f for _, f in d['params']]
            more = d['defaults'][len(given):]
            if len(given) + len(more) != len(full):
                continue
            vals = list(args) + [Const(x) for x in more]
            forms2 = given + [('none' if x is None else f'{x}' if isinstance(x, bool) else 'int')
                              for x in more]
            if d['kind'] == 'item' and forms2 == ['nd'] and full == ['item'] and self.rows:
                src = self.as_rows(vals[0])
                o = d['result']
                t = R(f'({src.base}.map ({d["lean"]} {obj.code}))', o[0], o[1])
                return t
            if forms2 == full:
                codes = [obj.code] if obj.code else []
                for v, f in zip(vals, full):
                    if f == 'nd':
                        codes.append(v.name)
                    elif f == 'int':
                        codes.append(v.code if isinstance(v, Int) else atom(number(v.value)))
                    elif f == 'item':
                        codes.append(atom(v.code()))
                call = ' '.join([d['lean']] + codes)
                if d['kind'] == 'item':
                    return variable(f'{call}' if d['result'][1] else f'({call})', *d['result'])
                t = self.fresh()
                self.emit(f'let {t} ← {call}')
                if d['result'] == 'nd':
                    return ND(t)
                return R(t, *d['result'])
        raise Unsupported(f'call of {fname} with {forms}')

    def call(self, e):
        f = e.func
        name = ast.unparse(f)
        if name == 'xlogx' and len(e.args) == 1 and not e.keywords:
            lean = self.unit['xlogx']
            return self.lift1(self.array(self.expr(e.args[0])),
                              lambda x: E('X', x.dims, lambda idx: f'({lean} {x.at(idx)})'))
        if name == 'np.log' and len(e.args) == 1 and not e.keywords:
            return self.lift1(self.array(self.expr(e.args[0])), lambda x: self.log(x))
        if name == 'np.sum' and len(e.args) == 1:
            kw = self.keywords(e, ['axis'])
            if self.static(kw['axis']) != -1:
                raise Unsupported('axis')
            return self.lift1(self.array(self.expr(e.args[0])), total)
        if name == 'np.einsum':
            return self.einsum(e)
        if name == 'np.zeros_like' and len(e.args) == 1 and not e.keywords:
            return self.lift1(self.array(self.expr(e.args[0])), lambda x: E('R', x.dims, lambda idx: '0'))
        if name == 'np.zeros' and len(e.args) == 1 and not e.keywords:
            s = self.expr(e.args[0])
            if isinstance(s, Shape) and s.dims:
                return E('R', s.dims, lambda idx: '0')
        if name == 'list' and len(e.args) == 1:
            s = self.expr(e.args[0])
            if isinstance(s, Shape) and s.dims:
                return s
        if name == 'np.asanyarray' and len(e.args) == 1 and not e.keywords:
            v = self.expr(e.args[0])
            if isinstance(v, ND):
                return v
        if name == 'np.any' and len(e.args) == 1 and not e.keywords:
            v = self.expr(e.args[0])
            if isinstance(v, Opaque) and v.ty == 'test':
                return Opaque(f'ndAny {v.code}', 'prop')
        if name == 'np.delete' and len(e.args) == 2:
            kw = self.keywords(e, ['axis'])
            return self.delete(self.expr(e.args[0]), self.expr(e.args[1]), self.static(kw['axis']))
        if name == 'np.atleast_1d' and len(e.args) == 1:
            v = self.expr(e.args[0])
            if isinstance(v, R) and not v.item('x').dims:
                return R(f'(Rows.atLeast1 {atom(v.code())})', v.item('x').elem, ())
        if name == 'np.linalg.eigvalsh' and len(e.args) == 1 and not e.keywords:
            v = self.expr(e.args[0])
            d = v.item('x').dims if isinstance(v, R) else ()
            if len(d) == 2 and d[0] == d[1] and v.item('x').elem == 'X':
                t = self.fresh()
                self.emit(f'let {t} ← Rows.eigvalsh {atom(v.code())}')
                return R(t, 'R', (d[0],))
        if name == 'np.nan_to_num' and len(e.args) == 1:
            kw = self.keywords(e, ['posinf', 'neginf', 'nan'])
            v = self.expr(e.args[0])
            if [self.static(kw[k]) for k in ('posinf', 'neginf')] != [0, 0] or \
                    ('nan' in kw and self.static(kw['nan']) != 0):
                raise Unsupported('replacement of infinities')
            if isinstance(v, R) and v.item('x').elem == 'X':
                return v.then(lambda x: E('R', x.dims, lambda idx: f'(XReal.nanToNum {x.at(idx)})'))
        if name == 'np.linalg.norm' and len(e.args) == 1:
            kw = self.keywords(e, ['ord', 'axis'])
            v = self.expr(e.args[0])
            o, a = self.expr(kw['ord']), self.expr(kw['axis'])
            if isinstance(v, R) and isinstance(o, Opaque) and isinstance(a, Opaque):
                t = self.fresh()
                self.emit(f'let {t} ← Rows.norm {atom(v.code())} {o.code} {a.code}')
                return Opaque(t, 'NormResult')
        if isinstance(f, ast.Attribute) and not (isinstance(f.value, ast.Name) and f.value.id == 'np'):
            v = self.expr(f.value)
            if isinstance(v, Obj) and not e.keywords:
                args = [self.expr(a) for a in e.args]
                info = self.unit['classes'][v.cls]
                if f.attr in info.get('methods', {}):
                    field, elem, dims = info['methods'][f.attr]
                    if len(args) == 1 and isinstance(args[0], E):
                        c = f'{v.code}.{field} {atom(args[0].code())}'
                        return variable(c if dims else f'({c})', elem, dims)
                return self.apply(f.attr, v, args)
            if f.attr == 'sum' and isinstance(v, (E, R)):
                axes = [self.static(a) for a in e.args] + \
                    [self.static(x) for x in self.keywords(e, ['axis']).values()]
                if axes == [-1] or (axes == [] and isinstance(v, E) and not self.rows and
                                    len(v.dims) == 1 and v.elem == 'R'):
                    return self.lift1(v, total)
            if f.attr == 'astype' and isinstance(v, R) and len(e.args) == 1 and \
                    ast.unparse(e.args[0]) == 'int' and v.item('x').elem == 'N':
                return v
            if f.attr == 'mean' and isinstance(v, R) and not e.args:
                kw = self.keywords(e, ['axis'])
                x = v.item('x')
                if self.static(kw['axis']) == 0 and len(x.dims) == 1 and x.elem == 'R':
                    t = self.fresh()
                    self.emit(f'let {t} ← Rows.mean0 {atom(v.code())}')
                    return R(t, 'R', x.dims)
        raise Unsupported(ast.unparse(e))

    def log(self, x):
        if x.elem != 'R':
            raise Unsupported('log')
        return E('X', x.dims, lambda idx: f'(XReal.log {x.at(idx)})')

    def einsum(self, e):
        """Only with leading axes that agree: `...` in operands stands for them."""
        if e.keywords or not isinstance(e.args[0], ast.Constant):
            raise Unsupported('einsum')
        lhs, rhs = e.args[0].value.replace(' ', '').split('->')
        ops = [self.expr(a) for a in e.args[1:]]
        parts = [p.replace('...', '') for p in lhs.split(',')]
        if len(parts) != len(ops) or any(not isinstance(o, E) or o.elem != 'R' for o in ops):
            raise Unsupported('einsum')
        dims = {}
        for p, o in zip(parts, ops):
            if len(p) != len(o.dims):
                raise Unsupported('einsum')
            for c, d in zip(p, o.dims):
                if dims.setdefault(c, d) != d:
                    raise Unsupported('einsum')
        out = rhs.replace('...', '')
        inner = [c for c in dict.fromkeys(''.join(parts)) if c not in out]

        def at(idx):
            names = {**{c: f's{c}' for c in inner}, **dict(zip(out, idx))}
            prod = ' * '.join(o.at([names[c] for c in p]) for p, o in zip(parts, ops))
            return '(' + ''.join(f'∑ s{c}, ' for c in inner) + prod + ')'
        return E('R', tuple(dims[c] for c in out), at)

    # ------------------------------------------------------------ statements
    def bind(self, name, v):
        if isinstance(v, E):
            self.emit(f'let {name} : {lean_type(v.elem, v.dims)} := {v.code()}')
            self.env[name] = variable(name, v.elem, v.dims)
        elif isinstance(v, R):
            x = v.item('x')
            self.emit(f'let {name} : Rows ({lean_type(x.elem, x.dims)}) := {v.code()}')
            self.env[name] = R(name, x.elem, x.dims)
        elif isinstance(v, ND):
            self.emit(f'let {name} : NDArr ℝ := {v.name}')
            self.env[name] = ND(name)
        elif isinstance(v, (Shape, Const)):
            self.env[name] = v
        else:
            raise Unsupported(f'assignment of {type(v).__name__}')

    def ret(self, v):
        spec = self.spec
        if isinstance(v, Opaque) and v.ty == 'NormResult':
            self.result = 'NormResult'
            self.emit(f'pure {v.code}')
        elif self.rows:
            if isinstance(v, ND):
                self.result = 'nd'
                self.emit(f'pure {v.name}')
            else:
                x = v.item('x')
                self.result = (x.elem, x.dims)
                self.emit(f'pure {atom(v.code())}')
        else:
            if isinstance(v, Const):
                v = self.const(v.value)
            if not isinstance(v, E):
                raise Unsupported('result')
            elem = spec.get('elem', v.elem)
            self.result = (elem, v.dims)
            self.emit(v.code(elem))

    def block(self, body):
        """Returns whether the block ends with `return` or `raise`."""
        for k, s in enumerate(body):
            if isinstance(s, ast.Expr) and isinstance(s.value, ast.Constant):
                continue
            if isinstance(s, ast.Expr) and is_message(s.value):
                if not message(s.value):
                    raise Unsupported('message')
                continue
            if isinstance(s, ast.Expr) and isinstance(s.value, ast.Call) and \
                    isinstance(s.value.func, ast.Attribute) and s.value.func.attr == 'append':
                n = s.value.func.value
                v, x = self.expr(n), self.expr(s.value.args[0])
                if isinstance(n, ast.Name) and isinstance(v, Shape) and v.dims and \
                        isinstance(x, Opaque) and x.ty == 'nat':
                    self.env[n.id] = Shape(dims=v.dims + (x.code,))
                    continue
                raise Unsupported('append')
            if isinstance(s, ast.Assign) and len(s.targets) == 1:
                t = s.targets[0]
                if isinstance(t, ast.Name):
                    self.bind(t.id, self.expr(s.value))
                    continue
                if isinstance(t, ast.Subscript) and isinstance(t.value, ast.Name):
                    self.store(t, self.expr(s.value))
                    continue
            if isinstance(s, ast.AugAssign) and isinstance(s.target, ast.Name) and type(s.op) in OPS:
                old = self.env[s.target.id]
                x = self.array(old)
                v = self.binary(lambda a, b: arith(OPS[type(s.op)], a, b), old, self.expr(s.value))
                if isinstance(x, R):
                    y = v.item('x')
                    if (y.elem, y.dims) != (x.item('x').elem, x.item('x').dims):
                        raise Unsupported('in-place operation')
                    t = self.fresh()
                    self.emit(f'let {t} ← Rows.inPlace {atom(x.code())} {atom(v.code())}')
                    v = R(t, y.elem, y.dims)
                self.bind(s.target.id, v)
                continue
            if isinstance(s, ast.Return):
                self.ret(self.expr(s.value))
                return True
            if isinstance(s, ast.If):
                done = self.branch(s, body[k + 1:])
                if done is None:
                    continue
                return done
            if isinstance(s, ast.For):
                self.loop(s)
                continue
            if isinstance(s, ast.Raise) and isinstance(s.exc, ast.Call):
                self.emit(f'.error .{ERRORS[s.exc.func.id]}')
                return True
            raise Unsupported(ast.unparse(s))
        return False

    def store(self, t, v):
        """`a[..., i, j] = x`"""
        a = self.env[t.value.id]
        items = t.slice.elts if isinstance(t.slice, ast.Tuple) else [t.slice]
        if not isinstance(a, E) or not isinstance(v, E) or v.dims or len(items) != 3 or len(a.dims) != 2 \
                or not (isinstance(items[0], ast.Constant) and items[0].value is Ellipsis):
            raise Unsupported('item assignment')
        i, j = (self.index(self.expr(x), d) for x, d in zip(items[1:], a.dims))
        n = t.value.id
        self.emit(f'let {n} : {lean_type(a.elem, a.dims)} := setAt2 {n} {i} {j} {v.as_elem(a.elem, [])}')

    def branch(self, s, rest):
        t = s.test
        if isinstance(t, ast.Call) and ast.unparse(t.func) == 'hasattr':
            return self.hasattr(s)
        if isinstance(t, ast.Compare) and isinstance(t.ops[0], ast.Is):
            return self.block((s.body if self.static(t) else s.orelse) + rest) or False
        v = self.expr(t)
        if isinstance(v, Opaque) and v.ty == 'prop' or isinstance(v, E) and v.elem == 'B' and not v.dims:
            c = v.code if isinstance(v, Opaque) else v.at([])
            self.emit(f'if {c} then')
            env = dict(self.env)
            self.loops += 1
            d1 = self.block(s.body)
            self.loops -= 1
            self.env = env
            if not d1:
                raise Unsupported('branch without return')
            self.emit('else')
            self.loops += 1
            d2 = self.block(s.orelse + rest)
            self.loops -= 1
            return d2
        raise Unsupported(ast.unparse(t))

    def hasattr(self, s):
        """`if hasattr(obj, "m"): x = … else: x = …` for an optional method."""
        obj, name = self.expr(s.test.args[0]), s.test.args[1].value
        field, elem, dims = self.unit['classes'][obj.cls]['optional'][name]
        if not (len(s.body) == 1 == len(s.orelse) and
                all(isinstance(b[0], ast.Assign) and isinstance(b[0].targets[0], ast.Name) and
                    b[0].targets[0].id == s.body[0].targets[0].id for b in (s.body, s.orelse))):
            raise Unsupported('hasattr')
        target = s.body[0].targets[0].id
        val = s.body[0].value
        if not (isinstance(val, ast.Call) and isinstance(val.func, ast.Attribute) and
                val.func.attr == name and len(val.args) == 1):
            raise Unsupported('hasattr')
        other = self.expr(val.func.value)
        if (other.code, other.cls) != (obj.code, obj.cls):
            raise Unsupported('hasattr of another object')
        arg = self.expr(val.args[0])
        b = self.expr(s.orelse[0].value)
        if b.elem != elem or b.dims != tuple(dims):
            raise Unsupported('branches of different types')
        self.emit(f'let {target} : {lean_type(elem, dims)} :=')
        self.emit(f'  match {obj.code}.{field} with')
        self.emit(f'  | some f => f {atom(arg.code())}')
        self.emit(f'  | none => {b.code()}')
        self.env[target] = variable(target, elem, dims)
        return None

    def loop(self, s):
        it = s.iter
        if not (isinstance(it, ast.Call) and ast.unparse(it.func) == 'range' and len(it.args) == 1
                and isinstance(s.target, ast.Name)) or s.orelse or self.rows:
            raise Unsupported('loop')
        n = self.expr(it.args[0])
        if not (isinstance(n, Opaque) and n.ty == 'nat'):
            raise Unsupported('range')
        names = {x.targets[0].value.id for x in s.body
                 if isinstance(x, ast.Assign) and isinstance(x.targets[0], ast.Subscript)}
        if len(names) != 1 or len(s.body) != 1:
            raise Unsupported('loop body')
        (name,) = names
        a = self.env[name]
        # numpy stores into the array with its own element type
        src = self.probe(s, n)
        if a.elem == 'R' and src == 'X':
            self.emit(f"let {name} : {lean_type('X', a.dims)} := {a.code('X')}")
            a = variable(name, 'X', a.dims)
            self.env[name] = a
        self.emit(f'let {name} : {lean_type(a.elem, a.dims)} :=')
        self.emit(f'  forRange {n.code} {name} fun {s.target.id} {name} =>')
        self.env[s.target.id] = Fin(s.target.id, n.code)
        self.loops += 2
        self.block(s.body)
        self.emit(name)
        self.loops -= 2
        self.env.pop(s.target.id)

    def probe(self, s, n):
        self.env[s.target.id] = Fin(s.target.id, n.code)
        v = self.expr(s.body[0].value)
        self.env.pop(s.target.id)
        return v.elem

    def translate(self):
        spec, args = self.spec, self.node.args
        if args.vararg or args.kwarg or args.kwonlyargs:
            raise Unsupported('arguments')
        names = [a.arg for a in args.args]
        defaults = [None] * (len(names) - len(args.defaults)) + args.defaults
        binders, params, dvals = [], [], []
        if names and names[0] == 'self':
            cls = self.unit['classes'][spec['cls']]
            self.env['self'] = Obj('' if cls.get('bare') else 'self', spec['cls'])
            binders += cls.get('binders') or [f"(self : {cls['type']})"]
            names, defaults = names[1:], defaults[1:]
        if set(names) != set(spec['params']):
            raise Unsupported(f'parameters {names}')
        for n, d in zip(names, defaults):
            form = spec['params'][n]
            if d is not None:
                dvals.append(ast.literal_eval(d))
            if form == 'nd':
                binders.append(f'({n} : NDArr ℝ)')
                self.env[n] = ND(n)
            elif form == 'int':
                binders.append(f'({n} : ℤ)')
                self.env[n] = Int(n)
            elif form in ('none', 'True', 'False'):
                self.env[n] = Const({'none': None, 'True': True, 'False': False}[form])
            elif form == 'item':
                elem, dims = spec['item']
                binders.append(f'({n} : {lean_type(elem, dims)})')
                self.env[n] = variable(n, elem, dims)
            else:
                binders.append(f'({n} : {form})')
                self.env[n] = Opaque(n, form)
            params.append((n, form))
        # only the trailing defaults are used by calls in this code
        full = [None] * (len(params) - len(dvals)) + dvals
        if not self.block(self.node.body):
            raise Unsupported('no return')
        lean = f"{spec.get('ns', '')}{spec['as']}"
        self.unit['done'].append({
            'py': spec['name'], 'cls': spec.get('cls'), 'lean': lean, 'kind': spec['kind'],
            'params': params, 'defaults': full, 'result': self.result})
        if self.result == 'nd':
            ty = 'NDArr ℝ'
        elif self.result == 'NormResult':
            ty = 'NormResult'
        else:
            ty = lean_type(*self.result)
            if self.rows:
                ty = f'Rows ({ty})'
        if self.rows:
            ty = f'Py ({ty})'
        return lean, binders, ty, self.lines


# ---------------------------------------------------------------- what is transcribed
def item(cls, name, lean, ns, **kw):
    return {'cls': cls, 'name': name, 'as': lean, 'ns': ns, 'kind': 'item', 'params': {'phis': 'item'},
            'item': ('R', ('C',)), **kw}


def rows(name, lean, **params):
    return {'cls': 'FreeEnergyBase', 'name': name, 'as': lean, 'ns': 'FreeEnergyBase.', 'kind': 'rows',
            'params': {'phis': 'nd', **params}}


PART = {'methods': {'_energy_impl': ('energy', 'X', ()), '_jacobian_impl': ('jacobian', 'X', ('C',)),
                    '_hessian_impl': ('hessian', 'X', ('C', 'C'))},
        'optional': {'_jacobian_fractions_impl': ('jacobianFractions', 'X', ('C',))}, 'fields': {}}

CLASSES = {
    'FloryHugginsInteractionBase': {
        'bare': True, 'binders': ['(chis : Mat C C ℝ)'],
        'fields': {'_chis': ('arr', 'chis', ('C', 'C')), 'num_comp': ('dim', 'C')}},
    'IdealGasEntropyBase': {
        'bare': True, 'binders': ['(sizes : Vec C ℝ)'],
        'fields': {'_sizes': ('arr', 'sizes', ('C',)), 'num_comp': ('dim', 'C')}},
    'Part': PART,
    'FreeEnergyBase': {
        'type': 'FreeEnergy C', 'fields': {
            'interaction': ('obj', 'interaction', 'Part'), 'entropy': ('obj', 'entropy', 'Part'),
            'num_comp': ('dim', 'C')}},
}

IMPL = ['_energy_impl', '_jacobian_impl', '_hessian_impl', '_jacobian_fractions_impl']

UNITS = [{
    'module': 'FreeEnergy', 'title': 'the numeric code of the free energies',
    'imports': ['Verif.Model.Norm', 'Verif.Model.TranscriptArrays'],
    'variables': '{C : ℕ}', 'xlogx': 'xlogx',
    'functions':
        [('flory/common/math.py', {'name': 'xlogx', 'as': 'xlogx', 'kind': 'item', 'params': {'x': 'item'},
                                   'item': ('R', ()), 'elem': 'X'})] +
        [('flory/interaction/flory_huggins.py',
          item('FloryHugginsInteractionBase', n, n[1:], 'FloryHugginsInteractionBase.')) for n in IMPL[:3]] +
        [('flory/entropy/ideal_gas.py',
          item('IdealGasEntropyBase', n, n[1:], 'IdealGasEntropyBase.')) for n in IMPL] +
        [('flory/free_energy/base.py', s) for s in
            [item('FreeEnergyBase', n, n[1:], 'FreeEnergyBase.') for n in IMPL] +
            [rows('check_volume_fractions', 'check_volume_fractions', axis='int'),
             rows('free_energy_density', 'free_energy_density'),
             rows('jacobian', 'jacobian', index='none'), rows('jacobian', 'jacobian_at', index='int'),
             rows('hessian', 'hessian', index='none'), rows('hessian', 'hessian_at', index='int'),
             rows('chemical_potentials', 'chemical_potentials'),
             rows('exchange_chemical_potentials', 'exchange_chemical_potentials', index='int'),
             rows('pressure', 'pressure', index='int'),
             rows('num_unstable_modes', 'num_unstable_modes', conserved='True'),
             rows('num_unstable_modes', 'num_unstable_modes_free', conserved='False'),
             rows('is_stable', 'is_stable', conserved='True'),
             rows('is_stable', 'is_stable_free', conserved='False'),
             rows('equilibration_error', 'equilibration_error', order='NormOrder', axis='Option ℤ')]],
}]


def find(tree, spec):
    body = tree.body
    if spec.get('cls'):
        (c,) = [n for n in body if isinstance(n, ast.ClassDef) and n.name == spec['cls']]
        body = c.body
    (f,) = [n for n in body if isinstance(n, ast.FunctionDef) and n.name == spec['name']]
    return f


def run_unit(unit, repo):
    unit['done'], unit['classes'] = [], CLASSES
    out = [f'import {i}' for i in unit['imports']]
    out += ['', '/-!', f"# Transcription of {unit['title']}", '',
            'Written by `tools/transcribe_arrays.py`; do not edit.', '-/', '',
            'set_option linter.unusedVariables false', '', 'namespace Flory.Gen', '',
            'open XReal (fin nan)', '', f"variable {unit['variables']}", '']
    for file, spec in unit['functions']:
        node = find(ast.parse(open(os.path.join(repo, file)).read()), spec)
        lean, binders, ty, lines = Fun(unit, node, spec).translate()
        form = ', '.join(f'{n}={v[0].upper() + v[1:]}' for n, v in spec['params'].items()
                         if v in ('none', 'True', 'False'))
        label = (spec['cls'] + '.' if spec.get('cls') else '') + spec['name']
        out.append(f"/-- `{label}`{' with `' + form + '`' if form else ''}"
                   f' (`{file}:{node.lineno}-{node.end_lineno}`). -/')
        out.append(f"noncomputable def {lean} {' '.join(binders)} :")
        out.append(f"    {ty} :={' do' if spec['kind'] == 'rows' else ''}")
        out += lines + ['']
    out.append('end Flory.Gen')
    return '\n'.join(out) + '\n'


def main():
    repo, out = '/repo', os.path.join(os.path.dirname(__file__), '..', 'lean', 'Verif', 'Gen')
    a = sys.argv[1:]
    if '--repo' in a:
        repo = a[a.index('--repo') + 1]
    if '--out' in a:
        out = a[a.index('--out') + 1]
    os.makedirs(out, exist_ok=True)
    loggers(repo)
    bad = 0
    for unit in UNITS:
        text = run_unit(unit, repo)
        p = os.path.join(out, unit['module'] + '.lean')
        if '--check' in a:
            if not os.path.exists(p) or open(p).read() != text:
                print(p, 'differs')
                bad += 1
        else:
            open(p, 'w').write(text)
    if '--check' in a:
        print(len(UNITS), 'modules,', bad, 'differ')
    sys.exit(bad > 0)


if __name__ == '__main__':
    main()
