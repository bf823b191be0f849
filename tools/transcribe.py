"""Transcribe Python functions of /repo into Lean definitions.

    python3 tools/transcribe.py            write lean/Verif/Gen/*.lean
    python3 tools/transcribe.py --check    compare with the committed files
    python3 tools/transcribe.py --repo DIR --out DIR

The transcription is line by line: an assignment becomes a `let`, an in-place operation rebinds the
variable, a `for` loop becomes `forRange`/`forRangeM` over the tuple of the variables its body
assigns, array expressions are written out entry by entry with numpy's broadcasting.  Types and
shapes of the arguments are given below in `UNITS`; everything else is read from the source.
Anything not understood raises an error, so nothing is skipped silently.

The theorems of lean/Verif/Props/Transcript*.lean prove that the result agrees with the hand-written
model.
"""
import ast, builtins, os, re, sys
from fractions import Fraction

sys.path.insert(0, os.path.dirname(os.path.abspath(__file__)))
from messages import is_message, loggers, message

# ---------------------------------------------------------------- types
# 'K' number, 'int', 'bool', ('fin', D) index below D, ('dim', D) the integer D,
# ('arr', elem, (D1, …)), ('obj', name), ('list', name), ('rng',), ('tup', …), None,
# ('opt', ty) a variable that may be unbound, ('none', ty) an argument that may be None,
# 'Q' a Python number that is not an array entry, 'str', ('rec', name) a record, 'nd' any array


class Unsupported(Exception):
    pass


def is_scalar(t):
    return t in ('K', 'int', 'nat') or (isinstance(t, tuple) and t[0] in ('fin', 'dim'))


def is_arr(t):
    return isinstance(t, tuple) and t[0] == 'arr'


def join(a, b):
    if a == b or b is None:
        return a
    if a is None:
        return b
    if is_scalar(a) and is_scalar(b):
        return 'K' if 'K' in (a, b) else 'int'
    if is_arr(a) and is_arr(b) and a[2] == b[2]:
        return ('arr', join(a[1], b[1]), a[2])
    raise Unsupported(f'cannot unify {a} and {b}')


class V:
    """A translated expression: its type and its entry at given indices."""

    def __init__(self, ty, at, whole=None, fresh=True):
        self.ty, self.at, self._whole, self.fresh = ty, at, whole, fresh


class Fun:
    """Translation of one function."""

    def __init__(self, unit, node, spec, types):
        self.unit, self.node, self.spec = unit, node, spec
        self.K = unit.get('K', 'K')
        self.vartypes = types
        self.changed = False
        self.nonempty = set(unit.get('nonempty', ()))
        self.count = 0
        self.items = None
        self.cls = spec.get('cls')
        self.init = spec['name'] == '__init__'
        self.fields = dict(unit.get('fields', {}).get(self.cls, {}))
        self.mut = set()
        self.diverges = False

    # ------------------------------------------------------------ helpers
    def fresh(self, base='t'):
        self.count += 1
        return f'{base}{self.count}'

    def lean_ty(self, t):
        if t is None:  # only while types are still being found
            return '_'
        if t == 'K':
            return self.K
        if t == 'int':
            return 'ℤ'
        if t == 'bool':
            return 'Bool'
        if t == 'nat':
            return 'ℕ'
        if t in ('Q', 'str', 'nd'):
            return {'Q': 'ℚ', 'str': 'String', 'nd': f'NDArr {self.K}'}[t]
        if t[0] == 'rec':
            return t[1]
        if t[0] == 'none':
            return f'Option {self.atom(self.lean_ty(t[1]))}'
        if t[0] == 'fin':
            return f'Fin {t[1]}'
        if t[0] == 'dim':
            return 'ℕ'
        if t[0] == 'arr':
            e = self.lean_ty(t[1])
            if len(t[2]) == 1:
                return f'Vec {t[2][0]} {e}'
            if len(t[2]) == 2:
                return f'Mat {t[2][0]} {t[2][1]} {e}'
        if t[0] == 'opt':
            x = self.lean_ty(t[1])
            return f'Option ({x})' if ' ' in x else f'Option {x}'
        if t[0] == 'obj':
            return re.sub(r'\bK\b', self.K, self.unit['objects'][t[1]]['type'])
        if t[0] == 'list':
            return f"List ({self.lean_ty(('obj', t[1]))})"
        if t[0] == 'tup':
            return ' × '.join(self.lean_ty(x) if not (isinstance(x, tuple) and x[0] == 'tup')
                              else f'({self.lean_ty(x)})' for x in t[1:])
        raise Unsupported(f'type {t}')

    def coerce(self, v, ty, idx=()):
        """Code of an entry of `v` as element of type `ty`."""
        src = v.ty[1] if is_arr(v.ty) else v.ty
        dst = ty[1] if is_arr(ty) else ty
        code = v.at(list(idx))
        return self.cast(code, src, dst)

    def cast(self, code, src, dst):
        if src == dst or src is None:  # None only while types are still being found
            return code
        if dst == 'K':
            if src == 'int':
                if code.lstrip('-').isdigit() or code.startswith('(-') and code[2:-1].isdigit():
                    return code
                return f'(({code} : ℤ) : {self.K})'
            if src == 'nat' or src[0] in ('fin', 'dim'):
                return f'(({code} : ℕ) : {self.K})'
        if dst == 'int':
            if src == 'nat' or src[0] in ('fin', 'dim'):
                return f'(({code} : ℕ) : ℤ)'
        raise Unsupported(f'cannot convert {src} to {dst}')

    def whole(self, v, ty=None):
        """Code of the complete value."""
        ty = ty or v.ty
        if v.ty == 'nd' and is_arr(ty):
            return f"{v._whole}.toMat {' '.join(ty[2])}"
        if is_arr(v.ty):
            if v._whole is not None and ty == v.ty:
                return v._whole
            names = [self.fresh('i') for _ in v.ty[2]]
            return f"fun {' '.join(names)} => {self.coerce(v, ty, names)}"
        if ty == 'bool':
            return v.at([])
        return self.coerce(v, ty)

    def atom(self, code):
        if code.replace('_', 'a').replace('.', 'a').isalnum() or (code[0] == '(' and self.closed(code)):
            return code
        return f'({code})'

    def bare(self, code):
        return code[1:-1] if code[0] == '(' and self.closed(code) and not self.tuple_(code) else code

    @staticmethod
    def tuple_(code):
        depth = 0
        for ch in code[1:-1]:
            depth += (ch in '({') - (ch in ')}')
            if depth == 0 and ch in ',:':
                return True
        return False

    @staticmethod
    def closed(code):
        depth = 0
        for k, ch in enumerate(code):
            depth += (ch == '(') - (ch == ')')
            if depth == 0 and k < len(code) - 1:
                return False
        return depth == 0

    def let(self, name, code, ty=None, monadic=False):
        self.items.append((name, ty, code if isinstance(code, list) else [code], monadic))

    def var(self, name, ty):
        if is_arr(ty):
            return V(ty, lambda idx, n=name: f"({n} {' '.join(idx)})" if idx else n, name, False)
        return V(ty, lambda idx, n=name: n, name)

    def new(self, name, ty):
        """A value returned by a call: not an alias of anything."""
        v = self.var(name, ty)
        v.fresh = True
        return v

    def lookup(self, name):
        if name not in self.env:
            raise Unsupported(f'unknown variable {name}')
        ty = self.env[name]
        if isinstance(ty, tuple) and ty[0] == 'opt':
            self.let(name, f'boundVar {name}', ty[1], True)
            self.env[name] = ty = ty[1]
        if isinstance(ty, tuple) and ty[0] == 'dim':
            return V(ty, lambda idx: ty[1])
        return self.var(name, ty)

    def bind(self, name, v):
        """name = v"""
        ty = v.ty
        if isinstance(ty, tuple) and ty[0] == 'dim' and name not in self.vartypes:
            self.vartypes[name] = ty
        if isinstance(ty, tuple) and ty[0] == 'fin' and name not in self.vartypes:
            self.vartypes[name] = ty
        if ty == 'nd' and is_arr(self.vartypes.get(name)):
            ty = self.vartypes[name]
        new = join(self.vartypes.get(name), ty)
        if new != self.vartypes.get(name):
            self.vartypes[name] = new
            self.changed = True
        ty = new
        self.let(name, self.whole(v, ty), ty)
        self.env[name] = ty

    # ------------------------------------------------------------ expressions
    def const(self, x):
        if isinstance(x, bool):
            return V('bool', lambda idx: 'true' if x else 'false')
        if isinstance(x, int):
            return V('int', lambda idx: str(x) if x >= 0 else f'({x})')
        if isinstance(x, str):
            return V('str', lambda idx: '"' + x + '"')
        if isinstance(x, float):
            f = Fraction(x)
            code = str(f.numerator) if f.denominator == 1 else f'({f.numerator} / {f.denominator})'
            return V('K', lambda idx: code)
        raise Unsupported(f'constant {x!r}')

    def place(self, node):
        """Local name for a variable or an attribute of self."""
        if isinstance(node, ast.Name):
            return node.id
        if isinstance(node, ast.Call) and ast.unparse(node.func) == 'tuple' and len(node.args) == 1:
            node = node.args[0]
        if isinstance(node, ast.Attribute) and isinstance(node.value, ast.Name) \
                and node.value.id == 'self' and node.attr in self.fields:
            return 'self' + node.attr
        return None

    def expr(self, e):
        p = self.place(e)
        if p is not None:
            return self.lookup(p)
        if isinstance(e, ast.Constant):
            return self.const(e.value)
        if isinstance(e, ast.UnaryOp) and isinstance(e.op, ast.USub):
            v = self.expr(e.operand)
            ty = 'int' if isinstance(v.ty, tuple) and v.ty[0] in ('fin', 'dim') else v.ty
            return V(ty, lambda idx: f'(-{self.coerce(v, ty, idx)})')
        if isinstance(e, ast.BinOp):
            return self.binop(e.op, self.expr(e.left), self.expr(e.right))
        if isinstance(e, ast.BoolOp) and isinstance(e.op, ast.And):
            n = len(self.items)
            vs = [self.expr(x) for x in e.values]
            if any(v.ty != 'bool' for v in vs) or len(self.items) != n:
                raise Unsupported(ast.unparse(e))
            return V('bool', lambda idx: ' ∧ '.join(v.at([]) for v in vs))
        if isinstance(e, ast.Dict):
            return self.dict_(e)
        if isinstance(e, ast.Compare) and len(e.ops) == 1 and all(
                isinstance(x, ast.Attribute) and x.attr == 'shape'
                for x in (e.left, e.comparators[0])):
            a, b = [self.shape_code(x.value) for x in (e.left, e.comparators[0])]
            sym = {ast.NotEq: '≠', ast.Eq: '='}[type(e.ops[0])]
            return V('bool', lambda idx: f'{a} {sym} {b}')
        if isinstance(e, ast.Compare) and len(e.ops) == 1:
            return self.compare(e.ops[0], self.expr(e.left), self.expr(e.comparators[0]))
        if isinstance(e, ast.Attribute):
            return self.attribute(e)
        if isinstance(e, ast.Subscript):
            return self.subscript(e)
        if isinstance(e, ast.Call):
            return self.call(e)
        raise Unsupported(ast.unparse(e))

    def shape2(self, a, b):
        """numpy broadcasting of two shapes with symbolic dimensions."""
        n = max(len(a), len(b))
        a, b = (1,) * (n - len(a)) + a, (1,) * (n - len(b)) + b
        out = []
        for x, y in zip(a, b):
            if x == y or y == 1:
                out.append(x)
            elif x == 1:
                out.append(y)
            else:
                raise Unsupported(f'shapes {a} and {b}')
        return tuple(out)

    def pointwise(self, f, elem, *vs):
        shapes = [v.ty[2] if is_arr(v.ty) else () for v in vs]
        shape = ()
        for s in shapes:
            shape = self.shape2(shape, s)

        def at(idx):
            return f(*[(lambda ty, v=v, s=s: self.coerce(v, ty, idx[len(idx) - len(s):] if s else []))
                       for v, s in zip(vs, shapes)])
        return V(('arr', elem, shape) if shape else elem, at)

    def elem(self, v):
        return v.ty[1] if is_arr(v.ty) else v.ty

    def num(self, *vs):
        """Common number type of entries."""
        t = None
        for v in vs:
            x = self.elem(v)
            if not is_scalar(x):
                raise Unsupported(f'number expected, got {v.ty}')
            t = join(t, 'int' if x != 'K' else 'K')
        return t

    def binop(self, op, a, b):
        if isinstance(op, ast.MatMult):
            if not (is_arr(a.ty) and is_arr(b.ty) and len(a.ty[2]) == 2
                    and a.ty[2][1] == b.ty[2][0]):
                raise Unsupported(f'matrix product of {a.ty} and {b.ty}')
            k = self.fresh('k')
            shape = (a.ty[2][0],) + b.ty[2][1:]
            return V(('arr', 'K', shape), lambda idx:
                     f"(∑ {k}, {self.coerce(a, 'K', [idx[0], k])} * {self.coerce(b, 'K', [k] + idx[1:])})")
        if 'Q' in (a.ty, b.ty):
            if not isinstance(op, ast.Div):
                raise Unsupported(f'operator {op} of numbers')
            n = self.fresh()
            x, y = [v.at([]) if v.ty == 'Q' else f"(({self.coerce(v, 'int')} : ℤ) : ℚ)" for v in (a, b)]
            self.let(n, f'pyDiv {self.atom(x)} {self.atom(y)}', 'Q', True)
            return self.var(n, 'Q')
        t = self.num(a, b)
        if isinstance(op, ast.FloorDiv):
            if t != 'int' or is_arr(a.ty) or is_arr(b.ty):
                raise Unsupported('//')
            n = self.fresh()
            self.let(n, f"pyFloorDiv {self.atom(self.coerce(a, 'int'))} "
                        f"{self.atom(self.coerce(b, 'int'))}", 'int', True)
            return self.var(n, 'int')
        if isinstance(op, ast.Div):
            if not is_arr(a.ty) and not is_arr(b.ty):
                n = self.fresh()
                self.let(n, f"pyDiv {self.atom(self.coerce(a, 'K'))} {self.atom(self.coerce(b, 'K'))}",
                         'K', True)
                return self.var(n, 'K')
            return self.pointwise(lambda x, y: f"({x('K')} / {y('K')})", 'K', a, b)
        sym = {ast.Add: '+', ast.Sub: '-', ast.Mult: '*'}.get(type(op))
        if sym is None:
            raise Unsupported(f'operator {op}')
        return self.pointwise(lambda x, y: f'({x(t)} {sym} {y(t)})', t, a, b)

    def dict_(self, e):
        """A dictionary with known keys is a record."""
        keys = [k.value for k in e.keys]
        ty, fields, skip = self.unit['dicts'][tuple(keys)]
        parts = []
        for k, x in zip(keys, e.values):
            if k not in skip:
                v = self.expr(x)
                parts.append(f'{fields[k][0]} := {self.bare(self.whole(v, fields[k][1]))}')
        n = self.fresh()
        self.let(n, 'some { ' + ', '.join(parts) + ' }', ('rec', ty))
        return self.new(n, ('rec', ty))

    def shape_code(self, e):
        v = self.expr(e)
        if v.ty == 'nd':
            return f'{v._whole}.shape'
        return '[' + ', '.join(v.ty[2]) + ']'

    def compare(self, op, a, b):
        if a.ty == 'str' and b.ty == 'str' and isinstance(op, ast.Eq):
            return V('bool', lambda idx: f'{a.at([])} = {b.at([])}')
        t = self.num(a, b)
        sym = {ast.Gt: '>', ast.Lt: '<', ast.GtE: '≥', ast.LtE: '≤', ast.Eq: '=',
               ast.NotEq: '≠'}.get(type(op))
        if sym is None:
            raise Unsupported(f'comparison {op}')
        return self.pointwise(lambda x, y: f'{x(t)} {sym} {y(t)}', 'bool', a, b)

    def attribute(self, e):
        if e.attr == 'T':
            v = self.expr(e.value)
            return V(('arr', v.ty[1], v.ty[2][::-1]), lambda idx: v.at(idx[::-1]))
        if isinstance(e.value, ast.Name) and e.value.id == 'self':
            prop = self.unit.get('properties', {}).get(self.cls, {}).get(e.attr)
            if prop is None:
                raise Unsupported(ast.unparse(e))
            return V(prop, lambda idx: prop[1])
        if isinstance(e.value, ast.Name) and isinstance(self.env.get(e.value.id), tuple) \
                and self.env[e.value.id][0] == 'obj':
            m = self.unit['objects'][self.env[e.value.id][1]]['properties'][e.attr]
            return V(m[1], lambda idx: f"({e.value.id}.{m[0]} {' '.join(idx)})" if idx
                     else f'{e.value.id}.{m[0]}', f'{e.value.id}.{m[0]}')
        raise Unsupported(ast.unparse(e))

    def shape_of(self, e):
        """Type of an expression whose value is not needed (`zeros_like`)."""
        if isinstance(e, ast.Subscript):
            return ('arr',) + (self.shape_of(e.value)[1],) + (self.shape_of(e.value)[2][1:],)
        return self.expr(e).ty

    def index(self, v):
        return v.ty[0] if isinstance(v.ty, tuple) else v.ty

    def subscript(self, e):
        if isinstance(e.value, ast.Attribute) and e.value.attr == 'shape':
            d = self.expr(e.value.value).ty[2][e.slice.value]
            return V(('dim', d), lambda idx: d)
        base = self.expr(e.value)
        parts = e.slice.elts if isinstance(e.slice, ast.Tuple) else [e.slice]
        if len(parts) == 2 and isinstance(parts[0], ast.Slice) and parts[0].lower is None \
                and parts[0].upper is None:
            base = V(('arr', base.ty[1], base.ty[2][::-1]), lambda idx, b=base: b.at(idx[::-1]),
                     fresh=False)
            parts = [parts[1]]
        for p in parts:
            i = self.expr(p)
            dim, rest = base.ty[2][0], base.ty[2][1:]
            ty = ('arr', base.ty[1], rest) if rest else base.ty[1]
            if isinstance(i.ty, tuple) and i.ty == ('fin', dim):
                code = i.at([])
                b = base
                base = V(ty, lambda idx, b=b, code=code: b.at([code] + idx), fresh=False)
            elif self.num(i) == 'int':
                n = self.fresh()
                self.let(n, f"readInt {self.atom(self.whole(base))} {self.atom(self.coerce(i, 'int'))}",
                         ty, True)
                base = self.var(n, ty)
            else:
                raise Unsupported(ast.unparse(e))
        return base

    def dims(self, e):
        parts = e.elts if isinstance(e, ast.Tuple) else [e]
        out = []
        for p in parts:
            t = self.expr(p).ty
            if not (isinstance(t, tuple) and t[0] == 'dim'):
                raise Unsupported(f'dimension {ast.unparse(p)}')
            out.append(t[1])
        return tuple(out)

    def fold_max(self, v, f):
        """`v.max()` / `v.min()` over all entries."""
        if not is_arr(v.ty):
            raise Unsupported(f'{f} of {v.ty}')
        names = [self.fresh('i') for _ in v.ty[2]]
        code = self.coerce(v, 'K', names)
        for k in reversed(range(len(names))):
            if v.ty[2][k] in self.nonempty:
                code = f'{f} fun {names[k]} => {code}'
            elif k == 0 and f == 'npMax':
                n = self.fresh()
                self.let(n, f'npMaxPy fun {names[k]} => {code}', 'K', True)
                return self.var(n, 'K')
            else:
                raise Unsupported(f'{f} over {v.ty}')
        return V('K', lambda idx: f'({code})')

    def call(self, e):
        f = ast.unparse(e.func)
        kw = {k.arg: k.value for k in e.keywords}
        if f == 'np.exp':
            v = self.expr(e.args[0])
            return self.pointwise(lambda x: f"(Real.exp {self.atom(x('K'))})", 'K', v)
        if f == 'np.abs':
            v = self.expr(e.args[0])
            return self.pointwise(lambda x: f"|{x('K')}|", 'K', v)
        if f == 'np.sign':
            v = self.expr(e.args[0])
            return self.pointwise(lambda x: f"(npSign {self.atom(x('K'))})", 'K', v)
        if f in ('np.zeros', 'np.ones'):
            d = self.dims(e.args[0])
            return V(('arr', 'K', d), lambda idx: '0' if f == 'np.zeros' else '1')
        if f in ('np.zeros_like', 'np.ones_like'):
            t = self.shape_of(e.args[0])
            return V(t, lambda idx: '0' if f == 'np.zeros_like' else '1')
        if f == 'np.full':
            d, v = self.dims(e.args[0]), self.expr(e.args[1])
            dt = kw.get('dtype', e.args[2] if len(e.args) > 2 else None)
            t = {'float': 'K', 'np.int32': 'int'}[ast.unparse(dt)]
            return V(('arr', t, d), lambda idx: self.coerce(v, t))
        if f == 'np.outer':
            a, b = self.expr(e.args[0]), self.expr(e.args[1])
            return V(('arr', 'K', (a.ty[2][0], b.ty[2][0])), lambda idx:
                     f"({self.coerce(a, 'K', [idx[0]])} * {self.coerce(b, 'K', [idx[1]])})")
        if f in ('max', 'min') and len(e.args) == 2:
            a, b = self.expr(e.args[0]), self.expr(e.args[1])
            t = self.num(a, b)
            return self.pointwise(lambda x, y: f'({f} {self.atom(x(t))} {self.atom(y(t))})', t, a, b)
        if f == 'int' and isinstance(e.args[0], ast.Call) and ast.unparse(e.args[0].func) == 'np.ceil':
            v = self.expr(e.args[0].args[0])
            if v.ty != 'Q':
                raise Unsupported(ast.unparse(e))
            return V('int', lambda idx: f'⌈{self.bare(v.at([]))}⌉')
        if f == 'np.array' and len(e.args) == 1:
            v = self.expr(e.args[0])
            if v.ty != 'nd':
                raise Unsupported(ast.unparse(e))
            return V('nd', v.at, v._whole)
        if f in self.unit.get('constructors', {}):
            ty, code = self.unit['constructors'][f]
            return V(('rec', ty), lambda idx, c=code.format(
                *[self.bare(self.whole(self.expr(a))) for a in e.args]): c)
        if f.startswith('self.') and f[5:] in self.unit['done'] and self.unit['done'][f[5:]]['cls']:
            return self.own(self.unit['done'][f[5:]], e)
        if f == 'self._rng.normal' and self.fields.get('_rng', (0, 0))[1] == ('rng',):
            if ast.unparse(e.args[0]) != '0.0':
                raise Unsupported(ast.unparse(e))
            std, d = self.expr(e.args[1]), self.dims(e.args[2])
            n = self.fresh('d')
            self.let(n, f"drawNormalPy rng {self.atom(self.coerce(std, 'K'))} {' '.join(d)} g", None, True)
            self.let('g', f'{n}.2', ('g',))
            return self.new(f'{n}.1', ('arr', 'K', d))
        if isinstance(e.func, ast.Attribute) and self.place(e.func.value) in self.env and \
                self.env[self.place(e.func.value)][0] == 'obj' and f.startswith('self.'):
            return self.method(self.place(e.func.value), e.func.attr, e)
        if f == 'int' and len(e.args) == 1:
            v = self.expr(e.args[0])
            if self.num(v) == 'int':
                return v
            return V('int', lambda idx: f"(npInt {self.atom(self.coerce(v, 'K'))})")
        if isinstance(e.func, ast.Attribute):
            m = e.func.attr
            o = e.func.value
            if isinstance(o, ast.Name) and isinstance(self.env.get(o.id), tuple) \
                    and self.env[o.id][0] == 'rng':
                return self.random(m, e.args)
            if isinstance(o, ast.Name) and isinstance(self.env.get(o.id), tuple) \
                    and self.env[o.id][0] == 'obj':
                return self.method(o.id, m, e)
            v = self.expr(o)
            if m == 'copy' and not kw and not e.args and is_arr(v.ty):
                return V(v.ty, v.at, v._whole)
            if m == 'sum' and not kw and not e.args:
                return self.sum(v, len(v.ty[2]))
            if m == 'sum' and ast.unparse(kw.get('axis', ast.Constant(0))) == '-1':
                return self.sum(v, 1)
            if m in ('max', 'min') and not kw and not e.args:
                return self.fold_max(v, 'npMax' if m == 'max' else 'npMin')
            if m == 'clip' and len(e.args) == 1:
                lo = self.expr(e.args[0])
                return self.pointwise(
                    lambda l, x: f"(npClipMin {self.atom(l('K'))} {self.atom(x('K'))})", 'K', lo, v)
        if isinstance(e.func, ast.Name) and f in self.unit['done']:
            return self.callee(self.unit['done'][f], e)
        raise Unsupported(ast.unparse(e))

    def sum(self, v, n):
        """Sum over the last `n` dimensions."""
        rest = v.ty[2][:len(v.ty[2]) - n]
        names = [self.fresh('i') for _ in range(n)]
        if v.ty[1] == 'bool':
            t = 'int'
            body = lambda idx: f'if {v.at(idx)} then 1 else 0'
        else:
            t = v.ty[1]
            body = lambda idx: self.coerce(v, v.ty, idx)

        def at(idx):
            pre = ''.join(f'∑ {x}, ' for x in names)
            return f'({pre}{body(idx + names)})'
        return V(('arr', t, rest) if rest else t, at)

    def random(self, m, args):
        a = [ast.unparse(x) for x in args]
        n = self.fresh('d')
        if m == 'uniform' and a == ['-1', '1']:
            self.let(n, 'rng.uniform g')
            t = 'K'
        elif m == 'integers' and a[0] == '0' and len(a) == 2:
            hi = self.expr(args[1])
            self.let(n, f"integersInt rng g {self.atom(self.coerce(hi, 'int'))}", None, True)
            t = 'int'
        else:
            raise Unsupported(f'rng.{m}{a}')
        self.let('g', f'{n}.2', ('g',))
        self.mut.add('g')
        return self.var(f'{n}.1', t)

    def method(self, obj, m, e):
        sp = self.unit['objects'][self.env[obj][1]]['methods'][m]
        args = [self.expr(a) for a in e.args]
        want = sp.get('args') or [None] * len(args)
        codes = [self.atom(self.whole(a, t)) for a, t in zip(args, want, strict=True)]
        code = sp['lean'].format(*codes, obj=obj)
        res = sp['result']
        if res == ['ret'] and not sp.get('monadic'):
            ty = sp['ret']
            if is_arr(ty):
                n = self.fresh()
                self.let(n, code, ty)
                return self.new(n, ty)
            return V(ty, lambda idx: f'({code})')
        n = self.fresh()
        self.let(n, code, None, sp.get('monadic', False))
        return self.unpack(n, res, lambda r: e.args[int(r[3:])] if r.startswith('arg') else
                           ast.Name(obj), sp.get('ret'))

    def unpack(self, n, res, node, ret):
        out = None
        for k, r in enumerate(res):
            code = self.proj(n, k, len(res))
            if r == 'ret':
                out = self.new(code, ret)
            elif r == 'g':
                self.let('g', code, ('g',))
            else:
                name = self.place(node(r))
                if name is None:
                    raise Unsupported(f'output argument {r}')
                self.let(name, code, self.env[name])
        return out

    @staticmethod
    def proj(n, k, total):
        if total == 1:
            return n
        return n + '.2' * k + ('.1' if k < total - 1 else '')

    def callee(self, done, e):
        params = done['params']
        given = dict(zip(params, e.args))
        given.update({k.arg: k.value for k in e.keywords})
        codes = []
        for p in params:
            ty = done['types'][p]
            if ty == ('rng',):
                r = given[p]
                if not (isinstance(r, ast.Name) and self.objtype(r.id) == ('rng',)) and not \
                        (isinstance(r, ast.Attribute) and ast.unparse(r.value) == 'self' and
                         self.fields.get(r.attr, (0, 0))[1] == ('rng',)):
                    raise Unsupported(f'generator {ast.unparse(r)}')
                codes.append('rng')
            else:
                v = self.expr(given[p])
                codes.append(self.atom(self.whole(v, 'K' if ty == 'K' else None)))
        if done['rng']:
            codes.append('g')
        code = ' '.join([done['lean']] + codes)
        if done['result'] == ['ret'] and not done['monadic']:
            if is_arr(done['ret']):
                n = self.fresh()
                self.let(n, code, self.sub(done, e)(done['ret']))
                return self.new(n, self.sub(done, e)(done['ret']))
            return V(done['ret'], lambda idx: f'({code})')
        n = self.fresh()
        self.let(n, code, None, done['monadic'])
        return self.unpack(n, done['result'], lambda r: given[r], done['ret'])

    def self_code(self):
        """The record `self` with the attributes assigned so far."""
        fs = [f for f in self.fields if 'self' + f in self.mut]
        if not fs:
            return 'self'
        return '{ self with ' + ', '.join(f'{self.fields[f][0]} := self{f}' for f in fs) + ' }'

    def own(self, done, e):
        """Call of another method of the same object."""
        given = dict(zip(done['params'], e.args))
        given.update({k.arg: k.value for k in e.keywords})
        codes = [self.atom(self.whole(self.expr(given[p]))) for p in done['params']]
        codes = [self.atom(self.self_code())] + codes + (['rng', 'g'] if done['rng'] else [])
        n = self.fresh()
        self.let(n, ' '.join([done['lean']] + codes), None, done['monadic'])
        out = None
        for k, r in enumerate(done['result']):
            code = self.proj(n, k, len(done['result']))
            if r == 'ret':
                out = self.new(code, done['ret'])
            elif r == 'g':
                self.let('g', code, ('g',))
            elif r == 'self':
                for f in done['changed']:
                    self.let('self' + f, f'{code}.{self.fields[f][0]}', self.fields[f][1])
                    self.mut.add('self' + f)
            else:
                raise Unsupported(f'output argument {r}')
        return out

    def sub(self, done, e):
        """Substitution of the callee's dimension names by the caller's."""
        m = {}
        given = dict(zip(done['params'], e.args))
        for p in done['params']:
            if is_arr(done['types'][p]):
                for x, y in zip(done['types'][p][2], self.expr(given[p]).ty[2]):
                    m[x] = y
        return lambda t: ('arr', t[1], tuple(m[d] for d in t[2])) if is_arr(t) else t

    # ------------------------------------------------------------ statements
    def assigned(self, stmts):
        """Names assigned in `stmts`, in order of appearance (including in-place changes)."""
        out = []

        def add(n):
            if n is not None and n not in out:
                out.append(n)

        def base(t):
            while isinstance(t, ast.Subscript):
                t = t.value
            return self.place(t)

        def calls(node):
            for c in ast.walk(node):
                if not isinstance(c, ast.Call):
                    continue
                f = ast.unparse(c.func)
                if f == 'self._rng.normal':
                    add('g')
                if f.startswith('self.') and f[5:] in self.unit['done']:
                    d = self.unit['done'][f[5:]]
                    for x in d['changed']:
                        add('self' + x)
                    if d['rng']:
                        add('g')
                if f in self.unit['done']:
                    d = self.unit['done'][f]
                    given = dict(zip(d['params'], c.args))
                    given.update({k.arg: k.value for k in c.keywords})
                    for r in d['result']:
                        if r in given:
                            add(self.place(given[r]))
                    if d['rng']:
                        add('g')
                if isinstance(c.func, ast.Attribute) and isinstance(c.func.value, ast.Name):
                    o = self.objtype(c.func.value.id)
                    if o == ('rng',):
                        add('g')
                    elif o is not None:
                        sp = self.unit['objects'][o[1]]['methods'].get(c.func.attr)
                        for r in (sp or {}).get('result', []):
                            if r.startswith('arg'):
                                add(self.place(c.args[int(r[3:])]))
                            elif r == 'self':
                                add(c.func.value.id)

        def go(ss):
            for s in ss:
                if isinstance(s, (ast.Assign, ast.AugAssign)):
                    calls(s.value)
                    for t in (s.targets if isinstance(s, ast.Assign) else [s.target]):
                        for x in (t.elts if isinstance(t, ast.Tuple) else [t]):
                            add(base(x))
                elif isinstance(s, ast.Expr):
                    calls(s)
                elif isinstance(s, ast.If):
                    calls(s.test)
                    go(s.body)
                    go(s.orelse)
                elif isinstance(s, ast.For):
                    lst = self.unrolled(s)
                    if lst:
                        self.loopobj[s.target.id] = ('obj', self.env_at_start(lst)[1])
                    inner = []
                    saved = list(out)
                    go(s.body)
                    if lst and s.target.id in out and s.target.id not in saved:
                        out.remove(s.target.id)
                        add(lst)
                elif isinstance(s, ast.While):
                    go(s.body)
                elif isinstance(s, ast.Return) and s.value is not None:
                    calls(s.value)
        go(stmts)
        return out

    def env_at_start(self, name):
        if name.startswith('self_'):
            return self.fields[name[4:]][1]
        return self.spec['types'][name]

    def objtype(self, name):
        t = self.loopobj.get(name) or self.spec['types'].get(name)
        return t if isinstance(t, tuple) and t[0] in ('obj', 'rng') else None

    def unrolled(self, s):
        """`for x in literal_unroll(list)` or `for x in self.list`"""
        p = self.place(s.iter)
        if p is not None and p.startswith('self_') and self.fields[p[4:]][1][0] == 'list':
            return p
        if isinstance(s.iter, ast.Call) and ast.unparse(s.iter.func) == 'literal_unroll' \
                and len(s.iter.args) == 1:
            return s.iter.args[0].id
        return None

    def loads(self, stmts):
        out = set()
        for s in stmts:
            for n in ast.walk(s):
                p = self.place(n) if isinstance(n, (ast.Name, ast.Attribute)) else None
                if p is not None:
                    out.add(p)
        return out

    def sub_block(self, stmts, live, final):
        """Translate a nested block; returns lines and whether it is monadic."""
        saved_items, saved_env = self.items, dict(self.env)
        self.items = []
        self.block(stmts, live)
        items, env = self.items, self.env
        res = final(env)
        items = self.items
        self.items, self.env = saved_items, saved_env
        return items, res, any(i[3] for i in items), env

    def render(self, items, result, monadic):
        lines = []
        for name, ty, code, m in items:
            t = '' if ty is None or ty == ('g',) else f' : {self.lean_ty(ty)}'
            if len(code) == 1:
                code = [self.bare(code[0])]
            op = '←' if m else ':='
            if len(code) == 1 and len(code[0]) + len(name) + len(t) < 85:
                lines.append(f'let {name}{t} {op} {code[0]}')
            else:
                lines.append(f'let {name}{t} {op}')
                lines += ['  ' + c for c in code]
        lines.append(f'pure {self.atom(result)}' if monadic else self.bare(result))
        return lines

    def tup(self, codes):
        return codes[0] if len(codes) == 1 else '(' + ', '.join(codes) + ')'

    def state_ty(self, names):
        return [self.env.get(n) for n in names]

    def unpack_state(self, st, names, types):
        out = []
        for k, n in enumerate(names):
            if len(names) > 1 or n != st:
                out.append((n, types[k], [self.proj(st, k, len(names))], False))
        return out

    def block(self, stmts, live):
        for k, s in enumerate(stmts):
            after = self.loads(stmts[k + 1:]) | live
            self.stmt(s, after)

    def stmt(self, s, live):
        if isinstance(s, ast.Pass) or (isinstance(s, ast.Expr) and isinstance(s.value, ast.Constant)):
            return
        if isinstance(s, ast.Assign) and len(s.targets) == 1:
            t = s.targets[0]
            if isinstance(t, ast.Tuple) and isinstance(s.value, ast.Attribute) and s.value.attr == 'shape':
                dims = self.expr(s.value.value).ty[2]
                for x, d in zip(t.elts, dims, strict=True):
                    self.bind(x.id, V(('dim', d), lambda idx, d=d: d))
                return
            v = self.expr(s.value)
            if isinstance(t, ast.Tuple):
                if not (isinstance(v.ty, tuple) and v.ty[0] == 'tup' and len(v.ty) == len(t.elts) + 1):
                    raise Unsupported(ast.unparse(s))
                for k, (x, ty) in enumerate(zip(t.elts, v.ty[1:])):
                    self.store(x, self.new(self.proj(v._whole, k, len(t.elts)), ty), s)
                return
            self.store(t, v, s)
            return
        if isinstance(s, ast.AugAssign):
            old = self.expr(s.target)
            new = self.expr(s.value)
            if is_arr(new.ty) and (not is_arr(old.ty) or self.shape2(old.ty[2], new.ty[2]) != old.ty[2]):
                raise Unsupported(ast.unparse(s))
            v = self.binop(s.op, old, new)
            v.fresh = True
            self.store(s.target, v, s)
            return
        if isinstance(s, ast.Expr) and isinstance(s.value, ast.Call):
            self.expr(s.value)
            return
        if isinstance(s, ast.If) and self.default(s):
            return
        if isinstance(s, ast.If) and len(s.body) == 1 and isinstance(s.body[0], ast.Raise) \
                and not s.orelse:
            cond = self.expr(s.test).at([])
            self.items.append(('_', None, [f'if {cond} then {self.raise_(s.body[0])} else Except.ok ()'],
                               True))
            return
        if isinstance(s, ast.If):
            return self.if_(s, live)
        if isinstance(s, ast.For) and self.breaks(s.body):
            return self.for_break(s, live)
        if isinstance(s, ast.For):
            return self.for_(s, live)
        if isinstance(s, ast.While):
            return self.while_(s, live)
        if isinstance(s, ast.Return):
            if s.value is None:
                self.ret = None
            elif isinstance(s.value, ast.Tuple):
                vs = [self.expr(x) for x in s.value.elts]
                self.ret = (('tup',) + tuple(v.ty for v in vs),
                            '(' + ', '.join(self.result_code(v) for v in vs) + ')')
            else:
                v = self.expr(s.value)
                want = self.spec.get('returns') or v.ty
                self.ret = (want, self.whole(v, want))
            return
        raise Unsupported(ast.unparse(s))

    def default(self, s):
        """`if x is None: x = e`"""
        t = s.test
        if not (isinstance(t, ast.Compare) and isinstance(t.ops[0], ast.Is)
                and isinstance(t.left, ast.Name)
                and ast.unparse(t.comparators[0]) == 'None'):
            return False
        n = t.left.id
        ty = self.env[n]
        if not (ty[0] == 'none' and len(s.body) == 1 and not s.orelse and isinstance(s.body[0], ast.Assign)
                and ast.unparse(s.body[0].targets[0]) == n):
            raise Unsupported(ast.unparse(s))
        v = self.expr(s.body[0].value)
        self.let(n, f'{n}.getD {self.atom(self.whole(v, ty[1]))}', ty[1])
        self.env[n] = self.vartypes[n] = ty[1]
        return True

    def raise_(self, s):
        name = ast.unparse(s.exc.func if isinstance(s.exc, ast.Call) else s.exc)
        return 'Except.error .' + {'ValueError': 'valueError'}[name]

    def result_code(self, v):
        return f'decide ({v.at([])})' if v.ty == 'bool' else self.whole(v)

    def store(self, t, v, s):
        p = self.place(t)
        if p is not None:
            if is_arr(v.ty) and not v.fresh and p not in self.spec.get('alias', ()):
                raise Unsupported(f'alias of an array: {ast.unparse(s)}')
            self.bind(p, v)
            if p.startswith('self_'):
                self.mut.add(p)
            return
        if isinstance(t, ast.Subscript):
            p = self.place(t.value)
            self.mut.add(p)
            base = self.lookup(p)
            elem, dims = base.ty[1], base.ty[2]
            parts = t.slice.elts if isinstance(t.slice, ast.Tuple) else [t.slice]
            if len(parts) == 2 and isinstance(parts[0], ast.Slice) and parts[0].lower is None \
                    and parts[0].upper is None:
                i = self.expr(parts[1])
                r = self.fresh('i')
                col = f'fun {r} => {self.coerce(v, base.ty, [r] if is_arr(v.ty) else [])}'
                self.let(p, f"writeCol {p} {self.atom(self.coerce(i, 'int'))} ({col})", base.ty, True)
                return
            ix = [self.expr(x) for x in parts]
            rest = dims[len(ix):]
            if is_arr(v.ty) and self.shape2(rest, v.ty[2]) != rest:
                raise Unsupported(ast.unparse(s))
            names = [self.fresh('i') for _ in rest]
            n = len(v.ty[2]) if is_arr(v.ty) else 0
            val = self.coerce(v, ('arr', elem, ()), names[len(names) - n:] if n else [])
            if names:
                val = f"(fun {' '.join(names)} => {val})"
            if all(isinstance(i.ty, tuple) and i.ty == ('fin', d) for i, d in zip(ix, dims)):
                if len(ix) == 1:
                    self.let(p, f'setAt {p} {ix[0].at([])} {self.atom(val)}', base.ty)
                else:
                    self.let(p, f'setAt2 {p} {ix[0].at([])} {ix[1].at([])} {self.atom(val)}', base.ty)
            elif len(ix) == 1 and self.num(ix[0]) == 'int':
                self.let(p, f"writeInt {p} {self.atom(self.coerce(ix[0], 'int'))} {self.atom(val)}",
                         base.ty, True)
            else:
                raise Unsupported(ast.unparse(s))
            return
        raise Unsupported(ast.unparse(s))

    def branch(self, stmts, names, live, force):
        items, res, m, env = self.sub_block(
            stmts, live, lambda env: self.tup([self.final(n, env) for n in names]))
        return items, res, m

    def final(self, n, env):
        want = self.vartypes.get(n) or env.get(n)
        if n == 'g':
            return 'g'
        have = env.get(n)
        if have is None:
            raise Unsupported(f'{n} may be unbound')
        return n

    def if_(self, s, live):
        names = [n for n in self.assigned([s]) if n in self.env or n == 'g']
        if isinstance(s.test, ast.Name) and isinstance(self.env.get(s.test.id), tuple) \
                and self.env[s.test.id][0] == 'list':
            cond = f'{s.test.id} ≠ []'
        else:
            cond = self.expr(s.test).at([])
        a = self.branch(s.body, names, live, False)
        b = self.branch(s.orelse, names, live, False)
        m = a[2] or b[2]
        d = ' do' if m else ''
        lines = [f'if {cond} then' + d]
        lines += ['  ' + x for x in self.render(a[0], a[1], m)]
        lines += ['else' + d]
        lines += ['  ' + x for x in self.render(b[0], b[1], m)]
        self.assign_state(names, lines, m)

    def assign_state(self, names, lines, m, types=None):
        types = types or [('g',) if n == 'g' else self.vartypes.get(n, self.env.get(n)) for n in names]
        st = names[0] if len(names) == 1 else self.fresh('s')
        self.let(st, lines, types[0] if len(names) == 1 else None, m)
        self.items += self.unpack_state(st, names, types)
        for n, t in zip(names, types):
            if n != 'g':
                self.env[n] = t

    def while_(self, s, live):
        """`while True: …; if c: …; break` followed by further statements."""
        if ast.unparse(s.test) != 'True' or s.orelse:
            raise Unsupported(f'while {ast.unparse(s.test)}')
        ends = [k for k, x in enumerate(s.body) if isinstance(x, ast.If) and not x.orelse
                and isinstance(x.body[-1], ast.Break)]
        breaks = sum(isinstance(x, (ast.Break, ast.Continue, ast.Return)) for x in ast.walk(s))
        if len(ends) != 1 or breaks != 1:
            raise Unsupported('exits of a while loop')
        k = ends[0]
        names = [n for n in self.assigned([s]) if n in self.env or n == 'g']
        if len(names) < 2:
            raise Unsupported('while loop with less than two variables')
        types = [('g',) if n == 'g' else self.vartypes.get(n, self.env.get(n)) for n in names]
        for n, t in zip(names, types):
            if n != 'g' and self.env[n] != t:
                raise Unsupported(f'{n} has type {self.env[n]} before and {t} in the loop')
        st = self.fresh('s')
        inside = self.loads(s.body) | live
        saved = (self.items, dict(self.env))
        self.items = self.unpack_state(st, names, types)
        self.block(s.body[:k], inside)
        cond = self.expr(s.body[k].test).at([])
        out = lambda flag: lambda env: f"({self.tup([self.final(n, env) for n in names])}, {flag})"
        a = self.sub_block(s.body[k].body[:-1], inside, out('true'))
        b = self.sub_block(s.body[k + 1:], inside, out('false'))
        lines = self.render(self.items, '0', True)[:-1]
        lines += [f'if {cond} then do'] + ['  ' + x for x in self.render(a[0], a[1], True)]
        lines += ['else do'] + ['  ' + x for x in self.render(b[0], b[1], True)]
        self.items, self.env = saved
        lines = [f'whileTrue {self.tup(names)} fun {st} => do'] + ['  ' + x for x in lines]
        self.diverges = True
        self.assign_state(names, lines, True, types)

    def breaks(self, stmts):
        """Whether a `break` of the enclosing loop occurs."""
        return any(isinstance(x, ast.Break) or isinstance(x, ast.If)
                   and (self.breaks(x.body) or self.breaks(x.orelse)) for x in stmts)

    def for_break(self, s, live):
        """`for _ in range(n)` whose body may end with `break` or an exception."""
        if s.orelse or s.target.id != '_' or ast.unparse(s.iter.func) != 'range' \
                or len(s.iter.args) != 1:
            raise Unsupported('for loop with break')
        length = f"({self.coerce(self.expr(s.iter.args[0]), 'int')}).toNat"
        asg = self.assigned([s])
        names = [n for n in asg if n in self.env or n == 'g']
        late = [n for n in asg if n not in names and n in live]
        types = [('g',) if n == 'g' else self.vartypes.get(n, self.env.get(n)) for n in names]
        for n in late:
            self.vartypes.setdefault(n, None)
        for n, t in zip(names, types):
            if n != 'g' and self.env[n] != t:
                raise Unsupported(f'{n} has type {self.env[n]} before and {t} in the loop')
        init = names + [f'(none : {self.lean_ty(("opt", self.vartypes[n]))})' if self.vartypes[n]
                        else 'none' for n in late]
        alltypes = types + [('opt', self.vartypes[n]) if self.vartypes[n] else None for n in late]
        st = self.fresh('s')
        inside = self.loads(s.body) | live
        saved = (self.items, dict(self.env))
        self.items = [i for i in self.unpack_state(st, names + late, alltypes) if i[0] in names]

        def out(flag):
            for n in late:
                if n not in self.env:
                    raise Unsupported(f'{n} unbound')
            fin = [self.final(n, self.env) for n in names] + [f'some {n}' for n in late]
            return f'({self.tup(fin)}, {flag})'
        lines = self.tail(s.body, inside, out)
        self.items, self.env = saved
        lines = [f'forBreakM {length} {self.tup(init)} fun {st} => do'] + ['  ' + x for x in lines]
        self.assign_state(names + late, lines, True, alltypes)

    def tail(self, stmts, live, out):
        """Statements that may end with `break` or an exception, as lines of a `do` block."""
        for k, x in enumerate(stmts):
            if isinstance(x, ast.Break):
                return self.render(self.items, out('true'), True)
            if isinstance(x, ast.Raise):
                return self.render(self.items, '0', True)[:-1] + [self.raise_(x)]
            if isinstance(x, ast.If) and any(isinstance(y, (ast.Break, ast.Raise)) for y in ast.walk(x)):
                cond = self.expr(x.test).at([])
                items, env = self.items, self.env
                parts = []
                for b in (x.body, x.orelse):
                    self.items, self.env = [], dict(env)
                    parts.append(self.tail(b + stmts[k + 1:], live, out))
                return self.render(items, '0', True)[:-1] + [f'if {cond} then do'] + \
                    ['  ' + y for y in parts[0]] + ['else do'] + ['  ' + y for y in parts[1]]
            self.stmt(x, self.loads(stmts[k + 1:]) | live)
        return self.render(self.items, out('false'), True)

    def for_(self, s, live):
        if s.orelse:
            raise Unsupported('for … else')
        lst = self.unrolled(s)
        asg = self.assigned([s])
        if lst:
            upd = lst in asg
            asg = [n for n in asg if n != lst]
        names = [n for n in asg if n in self.env or n == 'g']
        late = [n for n in asg if n not in names and n in live]
        types = [('g',) if n == 'g' else self.vartypes.get(n, self.env.get(n)) for n in names]
        for n in late:
            if n not in self.vartypes:
                self.vartypes[n] = None
        init = [n if n == 'g' else n for n in names]
        init += [f'(none : {self.lean_ty(("opt", self.vartypes[n]))})' if self.vartypes[n] else 'none'
                 for n in late]
        # the variables enter the loop with their final type
        for n, t in zip(names, types):
            if n != 'g' and self.env[n] != t:
                raise Unsupported(f'{n} has type {self.env[n]} before and {t} in the loop')
        st = (names + late)[0] if len(names + late) == 1 and not late else self.fresh('s')
        alltypes = types + [('opt', self.vartypes[n]) if self.vartypes[n] else None for n in late]

        sliced = None
        if lst:
            obj = s.target.id
            ity = ('obj', self.env[lst][1])
        elif isinstance(s.iter, ast.Subscript) and isinstance(s.iter.slice, ast.Slice):
            # for x in a[:n]
            sl = s.iter.slice
            a = self.place(s.iter.value)
            if sl.lower is not None or sl.step is not None or a is None or a in asg \
                    or len(self.lookup(a).ty[2]) != 1:
                raise Unsupported(ast.unparse(s.iter))
            obj, ity = s.target.id, self.lookup(a).ty[1]
            sliced = f"(takeInt {a} {self.atom(self.coerce(self.expr(sl.upper), 'int'))})"
        else:
            if not (isinstance(s.iter, ast.Call) and ast.unparse(s.iter.func) == 'range'):
                raise Unsupported(ast.unparse(s.iter))
            args = s.iter.args
            lo = 0
            if len(args) == 2:
                lo = args[0].value
            v = self.expr(args[-1])
            obj = s.target.id if s.target.id != '_' else '_i'
            if isinstance(v.ty, tuple) and v.ty[0] == 'dim' and lo == 0:
                length, ity = self.atom(v.at([])), ('fin', v.ty[1])
            else:
                if s.target.id != '_':
                    raise Unsupported('loop variable of a run-time range')
                length = f"({self.coerce(v, 'int')}{f' - {lo}' if lo else ''}).toNat"
                ity = None
        saved = (self.items, dict(self.env))
        self.items = []
        if len(names + late) > 1 or late:
            self.items += [i for i in self.unpack_state(st, names + late, alltypes)
                           if i[0] in names]
        if ity is not None:
            self.env[obj] = ity
            if not lst:
                self.vartypes.pop(obj, None)
        self.block(s.body, self.loads(s.body) | live)
        env = self.env
        fin = [self.final(n, env) for n in names] + [f'some {n}' for n in late]
        for n in late:
            if n not in env:
                raise Unsupported(f'{n} unbound')
        items = self.items
        self.items, self.env = saved
        m = any(i[3] for i in items)
        M = 'M' if m else ''
        d = ' do' if m else ''
        state = names + late
        if lst:
            if upd and not state:
                lines = [f'{"mapListM" if m else "mapList"} {lst} fun {obj} =>{d}']
                lines += ['  ' + x for x in self.render(items, obj, m)]
                self.let(lst, lines, self.env[lst], m)
                return
            head = f'forListUpd{M}' if upd else f'forList{M}'
            lines = [f'{head} {lst} {self.tup(init)} fun {obj} {st} =>{d}']
            res = f'({obj}, {self.tup(fin)})' if upd else self.tup(fin)
            lines += ['  ' + x for x in self.render(items, res, m)]
            if upd:
                r = self.fresh('s')
                self.let(r, lines, None, m)
                self.let(lst, f'{r}.1', self.env[lst])
                self.items += [(n, t, [self.proj(f'{r}.2', k, len(state))], False)
                               for k, (n, t) in enumerate(zip(state, alltypes))]
                for n2, t in zip(state, alltypes):
                    if n2 != 'g':
                        self.env[n2] = t
                return
        else:
            head = f'forList{M} {sliced}' if sliced else f'forRange{M} {length}'
            lines = [f'{head} {self.tup(init)} fun {obj} {st} =>{d}']
            lines += ['  ' + x for x in self.render(items, self.tup(fin), m)]
        if not state:
            raise Unsupported('loop without effect')
        self.assign_state(state, lines, m, alltypes)

    # ------------------------------------------------------------ whole function
    def translate(self):
        spec, node = self.spec, self.node
        self.items, self.env, self.loopobj, self.ret = [], {}, {}, None
        params = [a.arg for a in node.args.args + node.args.kwonlyargs
                  if a.arg not in spec.get('ignore', ())]
        types = dict(spec['types'])
        has_rng = False
        binders = []
        if self.cls:
            params = params[1:]
            st = self.unit['structures'][self.cls]
            if not self.init:
                binders.append(f'(self : {st})')
            for f, (lean, ty) in self.fields.items():
                if self.init:
                    continue
                if ty == ('rng',):
                    has_rng = 'g' in self.assigned(node.body)
                    continue
                if isinstance(ty, tuple) and ty[0] == 'dim':
                    self.env['self' + f] = ty
                    self.items.append(('self' + f, ty, [ty[1]], False))
                else:
                    self.env['self' + f] = ty
                    self.items.append(('self' + f, ty, [f'self.{lean}'], False))
        for p in params:
            ty = types[p]
            self.env[p] = ty
            if ty == ('rng',):
                has_rng = True
                binders.append(f'(rng : Rng G {self.K})')
            elif isinstance(ty, tuple) and ty[0] == 'dim':
                self.items.append((p, ty, [ty[1]], False))
            else:
                binders.append(f'({p} : {self.lean_ty(ty)})')
        for n, t in self.env.items():
            self.vartypes.setdefault(n, t)
        if has_rng and '(rng' not in ' '.join(binders):
            binders.append(f'(rng : Rng G {self.K})')
        if has_rng:
            binders.append('(g : G)')
        self.mut = set()
        body = [s for s in node.body]
        asg = self.assigned(body)
        self.block(body, set())
        outs = [p for p in params if p in asg and is_arr(types[p]) and self.inplace(p, body)]
        outs += [p for p in params if isinstance(types[p], tuple) and types[p][0] == 'list' and p in asg]
        result, codes, tys = [], [], []
        if self.ret is not None:
            result.append('ret')
            codes.append(self.ret[1])
            tys.append(self.ret[0])
        for p in outs:
            result.append(p)
            codes.append(p)
            tys.append(types[p])
        if self.init:
            for f, (lean, ty) in self.fields.items():
                if lean is None and self.env.get('self' + f) != ty:
                    raise Unsupported(f'the constructor does not set {f} as expected')
            result.append('self')
            codes.append('{ ' + ', '.join(f'{lean} := self{f}' for f, (lean, ty) in self.fields.items()
                                          if lean is not None) + ' }')
            tys.append(('obj', '__self__'))
        elif self.cls:
            changed = [f for f in self.fields if 'self' + f in asg]
            if changed:
                result.append('self')
                codes.append('{ self with ' + ', '.join(
                    f'{self.fields[f][0]} := self{f}' for f in changed) + ' }')
                tys.append(('obj', '__self__'))
            elif not codes:
                result.append('self')
                codes.append('self')
                tys.append(('obj', '__self__'))
        if has_rng:
            result.append('g')
            codes.append('g')
            tys.append(('g',))
        monadic = any(i[3] for i in self.items)

        def t2(t):
            if t == ('g',):
                return 'G'
            if t == ('obj', '__self__'):
                return self.unit['structures'][self.cls]
            return self.lean_ty(t)
        rty = ' × '.join(f'({t2(t)})' if isinstance(t, tuple) and t[0] == 'tup' and len(tys) > 1
                         else t2(t) for t in tys)
        if monadic:
            rty = f'Py ({rty})'
        # drop loads of fields and shapes that are not used
        items = self.prune(self.items, self.tup(codes))
        lines = self.render(items, self.tup(codes), monadic)
        self.done = dict(cls=self.cls, changed=[f for f in self.fields if 'self' + f in asg],
                         params=params, types=types, result=result, monadic=monadic, rng=has_rng,
                         ret=self.ret[0] if self.ret else None, lean=spec['lean'])
        return binders, rty, lines, monadic

    def prune(self, items, result):
        def used(name, rest):
            return re.search(r'(?<![\w.])' + re.escape(name) + r'(?!\w)', rest) is not None
        out, n = [], len(items)
        for k, it in enumerate(items):
            rest = '\n'.join('\n'.join(i[2]) for i in items[k + 1:]) + '\n' + result
            if it[3] or used(it[0], rest):
                out.append(it)
        if len(out) != n:
            return self.prune(out, result)
        return out

    def inplace(self, p, body):
        """Whether the array argument `p` is changed in place (not merely rebound)."""
        for s in ast.walk(ast.Module(body, [])):
            if isinstance(s, ast.AugAssign):
                t = s.target
                while isinstance(t, ast.Subscript):
                    t = t.value
                if self.place(t) == p:
                    return True
            if isinstance(s, ast.Assign):
                for t in s.targets:
                    if self.place(t) == p:
                        raise Unsupported(f'argument {p} is rebound')
                    while isinstance(t, ast.Subscript):
                        t = t.value
                        if self.place(t) == p:
                            return True
        return True


def vec(*d):
    return ('arr', 'K', d)


CONS_OBJ = {
    'type': 'Cons S M K',
    'properties': {'potential': ('potential', vec('S', 'M')),
                   'volume_derivative': ('volumeDerivative', vec('M'))},
    'methods': {
        'prepare': {'lean': 'Cons.prepare {0} {1} {2} {obj}', 'result': ['self']},
        'evolve': {'lean': 'Cons.evolve {0} {1} {obj}', 'result': ['ret', 'self'], 'ret': 'K',
                   'monadic': True},
    },
}

def methods(cls, pycls, prefix, spec):
    out = []
    for name, types in spec.items():
        d = {'name': name, 'cls': cls, 'pycls': pycls, 'types': types,
             'as': f"{prefix}.{'init' if name == '__init__' else name}"}
        if name == '__init__':
            d['alias'] = ['self_Cs', 'self_Ts', 'self_chis', 'self_sizes', 'self_num_comp_per_feat',
                          'self_phi_means', 'self_scaled_activity']
        out.append(d)
    return out


PREPARE = {'phis_feat': vec('S', 'M'), 'Js': vec('M'), 'masks': vec('M')}
EVOLVE = {'step': 'K', 'masks': vec('M')}
INIT_PART = {'num_part': ('dim', 'M')}


def linear(multiplier):
    return {'_num_cons': (None, ('dim', 'A')), '_num_feat': (None, ('dim', 'S')),
            '_Cs': ('Cs', vec('A', 'S')), '_Ts': ('Ts', vec('A')),
            '_multiplier': ('multiplier', multiplier), '_residue': ('residue', multiplier),
            '_potential': ('potential', vec('S', 'M')),
            '_volume_derivative': ('volumeDerivative', vec('M')),
            '_acceptance_ratio': ('acceptanceRatio', 'K'), '_elasticity': ('elasticity', 'K')}


CONSTRAINT = {'initialize': INIT_PART, 'prepare': PREPARE, 'evolve': EVOLVE}
PARTITION = {'phis_comp': vec('C', 'M'), 'Js': vec('M')}
NORMALIZE = {'phis_comp': vec('C', 'M'), 'Qs': vec('C'), 'masks': vec('M')}
NOC = methods('NoC', 'NoConstraintCompiled', 'NoC', CONSTRAINT)
NOC[2]['returns'] = 'K'

UNITS = [
    {
        'module': 'LinearLocal', 'file': 'flory/constraint/linear_local.py', 'nonempty': ['M'],
        'imports': ['Verif.Model.Constraint', 'Verif.Model.Transcript'],
        'variables': '{K : Type} [Field K] [LinearOrder K] {A S M : ℕ} [NeZero M]',
        'structures': {'LocalC': 'LocalC A S M K'}, 'fields': {'LocalC': linear(vec('A', 'M'))},
        'functions': methods('LocalC', 'LinearLocalConstraintCompiled', 'LocalC', CONSTRAINT),
    },
    {
        'module': 'LinearGlobal', 'file': 'flory/constraint/linear_global.py', 'nonempty': ['M'],
        'imports': ['Verif.Model.Constraint', 'Verif.Model.Transcript'],
        'variables': '{K : Type} [Field K] [LinearOrder K] {A S M : ℕ} [NeZero M]',
        'structures': {'GlobalC': 'GlobalC A S M K'}, 'fields': {'GlobalC': linear(vec('A'))},
        'functions': methods('GlobalC', 'LinearGlobalConstraintCompiled', 'GlobalC', CONSTRAINT),
    },
    {
        'module': 'NoConstraint', 'file': 'flory/constraint/no.py', 'nonempty': ['M'],
        'imports': ['Verif.Model.Constraint', 'Verif.Model.Transcript'],
        'variables': '{K : Type} [Field K] [LinearOrder K] {S M : ℕ} [NeZero M]',
        'structures': {'NoC': 'NoC S M K'},
        'fields': {'NoC': {'_num_feat': (None, ('dim', 'S')), '_potential': ('potential', vec('S', 'M')),
                           '_volume_derivative': ('volumeDerivative', vec('M'))}},
        'functions': NOC,
    },
    {
        'module': 'FloryHuggins', 'file': 'flory/interaction/flory_huggins.py',
        'imports': ['Verif.Model.Interaction', 'Verif.Model.Transcript'],
        'variables': '{K : Type} [Field K] [LinearOrder K] {S M : ℕ}',
        'structures': {'FHCompiled': 'FHCompiled S K'},
        'fields': {'FHCompiled': {'_num_feat': (None, ('dim', 'S')), '_chis': ('chis', vec('S', 'S')),
                                  '_incomp_coef': ('coef', 'K')}},
        'functions': methods('FHCompiled', 'FloryHugginsInteractionCompiled', 'FHCompiled', {
            '__init__': {'chis': vec('S', 'S'), 'chis_shift': 'K'},
            'volume_derivative': {'potential': vec('S', 'M'), 'phis_feat': vec('S', 'M')},
            'potential': {'phis_feat': vec('S', 'M')}, 'incomp_coef': {'phis_feat': vec('S', 'M')}}),
    },
    {
        'module': 'IdealGas', 'file': 'flory/entropy/ideal_gas.py', 'K': 'ℝ',
        'imports': ['Verif.Model.Entropy', 'Verif.Model.Transcript'],
        'variables': '{C M : ℕ}',
        'structures': {'IdealC': 'IdealC C'},
        'fields': {'IdealC': {'_num_comp': (None, ('dim', 'C')), '_num_feat': (None, ('dim', 'C')),
                              '_sizes': ('sizes', vec('C'))}},
        'properties': {'IdealC': {'num_comp': ('dim', 'C'), 'num_feat': ('dim', 'C')}},
        'functions': methods('IdealC', 'IdealGasEntropyCompiled', 'IdealC', {
            '__init__': {'sizes': vec('C')},
            'partition': {**PARTITION, 'omegas': vec('C', 'M')},
            'comp_to_feat': {'phis_feat': vec('C', 'M'), 'phis_comp': vec('C', 'M')},
            'volume_derivative': {'phis_comp': vec('C', 'M')}}),
    },
    {
        'module': 'Polydispersed', 'file': 'flory/entropy/ideal_gas_polydispersed.py', 'K': 'ℝ',
        'imports': ['Verif.Model.Entropy', 'Verif.Model.Transcript'],
        'variables': '{C S M : ℕ}',
        'structures': {'PolyC': 'PolyC C S'},
        'fields': {'PolyC': {'_num_comp': (None, ('dim', 'C')), '_num_feat': (None, ('dim', 'S')),
                             '_num_comp_per_feat': ('perFeat', ('arr', 'nat', ('S',))),
                             '_sizes': ('sizes', vec('C'))}},
        'properties': {'PolyC': {'num_comp': ('dim', 'C'), 'num_feat': ('dim', 'S')}},
        'functions': methods('PolyC', 'IdealGasPolydispersedEntropyCompiled', 'PolyC', {
            '__init__': {'sizes': vec('C'), 'num_comp_per_feat': ('arr', 'nat', ('S',))},
            'partition': {**PARTITION, 'omegas': vec('S', 'M')},
            'comp_to_feat': {'phis_feat': vec('S', 'M'), 'phis_comp': vec('C', 'M')},
            'volume_derivative': {'phis_comp': vec('C', 'M')}}),
    },
    {
        'module': 'Canonical', 'file': 'flory/ensemble/canonical.py',
        'imports': ['Verif.Model.Ensemble', 'Verif.Model.Transcript'],
        'variables': '{K : Type} [Field K] [LinearOrder K] {C M : ℕ}',
        'structures': {'CanonicalC': 'CanonicalC C K'},
        'fields': {'CanonicalC': {'_num_comp': (None, ('dim', 'C')), '_phi_means': ('phiMeans', vec('C'))}},
        'functions': methods('CanonicalC', 'CanonicalEnsembleCompiled', 'CanonicalC', {
            '__init__': {'phi_means': vec('C')}, 'normalize': NORMALIZE}),
    },
    {
        'module': 'GrandCanonical', 'file': 'flory/ensemble/grandcanonical.py',
        'imports': ['Verif.Model.Ensemble', 'Verif.Model.Transcript'],
        'variables': '{K : Type} [Field K] [LinearOrder K] {C M : ℕ}',
        'structures': {'GrandC': 'GrandC C K'},
        'fields': {'GrandC': {'_num_comp': (None, ('dim', 'C')),
                              '_scaled_activity': ('scaledActivity', vec('C'))}},
        'functions': methods('GrandC', 'GrandCanonicalEnsembleCompiled', 'GrandC', {
            '__init__': {'scaled_activity': vec('C')}, 'normalize': NORMALIZE}),
    },
    {
        'module': 'FinderImpl', 'file': 'flory/mcmp/_finder_impl.py', 'nonempty': ['M'],
        'imports': ['Verif.Model.FinderImpl', 'Verif.Model.Transcript'],
        'variables': '{K G : Type} [Field K] [LinearOrder K] [FloorRing K] {C S M : ℕ} [NeZero M]',
        'objects': {
            'Cons': CONS_OBJ,
            'Interaction': {'type': 'InteractionI S M K', 'properties': {}, 'methods': {
                'potential': {'lean': '{obj}.potential {0}', 'result': ['ret'], 'ret': vec('S', 'M'),
                              'args': [vec('S', 'M')]},
                'incomp_coef': {'lean': '{obj}.incompCoef {0}', 'result': ['ret'], 'ret': 'K'},
                'volume_derivative': {'lean': '{obj}.volumeDerivative {0} {1}', 'result': ['ret'],
                                      'ret': vec('M')}}},
            'Entropy': {'type': 'EntropyI C S M K', 'properties': {}, 'methods': {
                'partition': {'lean': '{obj}.partition {0} {1} {2}', 'result': ['arg0', 'ret'],
                              'ret': vec('C'), 'monadic': True},
                'comp_to_feat': {'lean': '{obj}.compToFeat {0} {1}', 'result': ['arg0'],
                                 'monadic': True},
                'volume_derivative': {'lean': '{obj}.volumeDerivative {0}', 'result': ['ret'],
                                      'ret': vec('M')}}},
            'Ensemble': {'type': 'EnsembleI C M K', 'properties': {}, 'methods': {
                'normalize': {'lean': '{obj}.normalize {0} {1} {2}', 'result': ['arg0', 'ret'],
                              'ret': vec('M'), 'monadic': True}}},
        },
        'functions': [
            {'name': 'count_valid_compartments', 'types': {'Js': vec('M'), 'threshold': 'K'}},
            {'name': 'make_valid_compartment_masks', 'types': {'Js': vec('M'), 'threshold': 'K'}},
            {'name': 'revive_compartments_by_random',
             'types': {'Js': vec('M'), 'targets': vec('S', 'M'), 'threshold': 'K', 'rng': ('rng',),
                       'scaler': 'K'}},
            {'name': 'revive_compartments_by_copy',
             'types': {'Js': vec('M'), 'targets': vec('S', 'M'), 'threshold': 'K', 'rng': ('rng',)}},
            {'name': 'multicomponent_self_consistent_metastep',
             'types': {'interaction': ('obj', 'Interaction'), 'entropy': ('obj', 'Entropy'),
                       'ensemble': ('obj', 'Ensemble'), 'constraints': ('list', 'Cons'),
                       'omegas': vec('S', 'M'), 'Js': vec('M'), 'phis_comp': vec('C', 'M'),
                       'phis_feat': vec('S', 'M'), 'steps_inner': 'int', 'acceptance_Js': 'K',
                       'Js_step_upper_bound': 'K', 'acceptance_omega': 'K', 'kill_threshold': 'K',
                       'revive_tries': 'int', 'revive_scaler': 'K', 'rng': ('rng',)}},
        ],
    },
    {
        'module': 'Finder', 'file': 'flory/mcmp/finder.py', 'nonempty': ['M'], 'K': 'ℝ',
        'imports': ['Verif.Model.FinderAttrs', 'Verif.Gen.FinderImpl'], 'uses': ['FinderImpl'],
        'variables': '{G : Type} {C S M : ℕ} [NeZero M]',
        'structures': {'Finder': 'FinderAttrs C S M'},
        'fields': {'Finder': {
            '_num_comp': (None, ('dim', 'C')), '_num_feat': (None, ('dim', 'S')),
            '_num_part': (None, ('dim', 'M')),
            '_interaction': ('interaction', ('obj', 'Interaction')),
            '_entropy': ('entropy', ('obj', 'Entropy')), '_ensemble': ('ensemble', ('obj', 'Ensemble')),
            '_constraints': ('constraints', ('list', 'Cons')), '_max_steps': ('maxSteps', 'Q'),
            '_convergence_criterion': ('criterion', 'str'), '_tolerance': ('tolerance', 'K'),
            '_interval': ('interval', 'int'), '_random_std': ('randomStd', 'K'),
            '_acceptance_Js': ('params.acceptanceJs', 'K'),
            '_acceptance_omega': ('params.acceptanceOmega', 'K'),
            '_Js_step_upper_bound': ('params.JsStepUpperBound', 'K'),
            '_kill_threshold': ('params.killThreshold', 'K'),
            '_revive_scaler': ('params.reviveScaler', 'K'),
            '_max_revive_per_compartment': ('maxRevive', 'int'),
            '_diagnostics': ('diagnostics', ('rec', 'Option DiagDict')),
            '_omegas': ('omegas', vec('S', 'M')), '_Js': ('Js', vec('M')),
            '_phis_feat': ('phisFeat', vec('S', 'M')), '_phis_comp': ('phisComp', vec('C', 'M')),
            '_revive_count_left': ('reviveLeft', 'int'), '_rng': (None, ('rng',))}},
        'dicts': {('steps', 'time', 'max_abs_incomp', 'max_abs_omega_diff', 'max_abs_js_diff',
                   'max_constraint_residue', 'revive_count_left'):
                  ('Option DiagDict', {
                      'steps': ('steps', 'int'), 'max_abs_incomp': ('maxAbsIncomp', 'K'),
                      'max_abs_omega_diff': ('maxAbsOmegaDiff', 'K'),
                      'max_abs_js_diff': ('maxAbsJsDiff', 'K'),
                      'max_constraint_residue': ('maxConstraintResidue', 'K'),
                      'revive_count_left': ('reviveCountLeft', 'int')}, ['time'])},
        'constructors': {'Phases': ('Phases M C ℝ', '⟨{0}, {1}⟩')},
        'functions': methods('Finder', 'CoexistingPhasesFinder', 'Finder', {
            'check_field': {'field': 'nd'}, 'reset_revive': {}, 'reinitialize_constraint': {},
            'reinitialize_random': {}, 'reinitialize_from_omegas': {'omegas': 'nd'},
            'reinitialize_from_phis': {'phis': 'nd'},
            'run': {'max_steps': ('none', 'Q'), 'tolerance': ('none', 'K'),
                    'interval': ('none', 'int')}}),
    },
]

UNITS[-1]['objects'] = {**UNITS[-2]['objects'], 'Cons': {**CONS_OBJ, 'methods': {
    'initialize': {'lean': 'Cons.reset {obj}', 'result': ['self']}}}}
for _f in UNITS[-1]['functions']:
    # logging, progress bars and the clock
    _f['ignore'] = ['self._logger', 'progress', 'bar_max', 'bar_format', 'bar_args', 'bar_text_args',
                    'pbar1', 'pbar2', 'pbar3', 'pbar4', 'pbar5', 'bar_val_func', 'start_time']

# The loop and the finder once more, with constraints of any class.
USER_OBJ = {
    'type': 'UserCons X S M K',
    'properties': CONS_OBJ['properties'],
    'methods': {
        'initialize': {'lean': 'UserCons.initialize {obj}', 'result': ['self']},
        'prepare': {'lean': 'UserCons.prepare {0} {1} {2} {obj}', 'result': ['self']},
        'evolve': {'lean': 'UserCons.evolve {0} {1} {obj}', 'result': ['ret', 'self'], 'ret': 'K',
                   'monadic': True},
    },
}
UNITS += [
    {**UNITS[-2], 'module': 'UserFinderImpl', 'namespace': 'Gen.User', 'uses': ['FinderImpl'],
     'imports': ['Verif.Model.UserConstraint', 'Verif.Gen.FinderImpl'],
     'variables': '{X : Type} ' + UNITS[-2]['variables'],
     'functions': [{**UNITS[-2]['functions'][-1]}],
     'objects': {**UNITS[-2]['objects'], 'Cons': USER_OBJ}},
    {**UNITS[-1], 'module': 'UserFinder', 'namespace': 'Gen.User', 'uses': ['FinderImpl', 'UserFinderImpl'],
     'imports': ['Verif.Model.UserConstraint', 'Verif.Gen.UserFinderImpl'],
     'variables': '{X : Type} ' + UNITS[-1]['variables'],
     'structures': {'Finder': 'UserAttrs X C S M'},
     'functions': [{**f} for f in UNITS[-1]['functions']],
     'objects': {**UNITS[-1]['objects'], 'Cons': USER_OBJ}},
]


class Strip(ast.NodeTransformer):
    """Removes the statements about the names in `ignore`."""

    def __init__(self, ignore):
        self.ignore = ignore

    def hit(self, e):
        t = ast.unparse(e)
        return any(t == r or t.startswith(r + '.') or t.startswith(r + '(') for r in self.ignore)

    def visit_Assign(self, s):
        return None if all(self.hit(t) for t in s.targets) else s

    def visit_Expr(self, s):
        if is_message(s.value) and not message(s.value):
            raise Unsupported('message')
        return None if isinstance(s.value, ast.Call) and self.hit(s.value.func) else s

    def visit_If(self, s):
        self.generic_visit(s)
        if not s.body and not s.orelse:
            return None
        s.body = s.body or [ast.Pass()]
        return s


def find(tree, spec):
    body = tree.body
    if spec.get('cls'):
        c = [n for n in body if isinstance(n, ast.ClassDef) and n.name == spec['pycls']][0]
        body = c.body
    found = [n for n in body if isinstance(n, ast.FunctionDef) and n.name == spec['name']]
    if len(found) != 1:
        raise Unsupported(f"{len(found)} definitions of {spec['name']}")
    return found[0]


def module_names(path):
    """Names bound at the top of a file, with those of `from … import *`."""
    bound = set()
    for n in ast.parse(open(path).read()).body:
        if isinstance(n, ast.ImportFrom) and n.names[0].name == '*' and n.level > 0:
            d = path
            for _ in range(n.level):
                d = os.path.dirname(d)
            f = os.path.join(d, *n.module.split('.'))
            f = os.path.join(f, '__init__.py') if os.path.isdir(f) else f + '.py'
            bound |= {x for x in module_names(f) if not x.startswith('_')}
        elif isinstance(n, (ast.Import, ast.ImportFrom)):
            bound |= {(a.asname or a.name).split('.')[0] for a in n.names}
        elif isinstance(n, (ast.FunctionDef, ast.ClassDef)):
            bound.add(n.name)
        elif isinstance(n, ast.Assign):
            bound |= {t.id for t in n.targets if isinstance(t, ast.Name)}
    return bound


def check_names(path, node):
    """Every name that is read, also in parts that are not transcribed, must be bound somewhere."""
    names = [n for s in node.body for n in ast.walk(s) if isinstance(n, ast.Name)]
    bound = set(dir(builtins)) | module_names(path)
    bound |= {a.arg for f in ast.walk(node) if isinstance(f, (ast.FunctionDef, ast.Lambda))
              for a in f.args.args + f.args.kwonlyargs + [f.args.vararg, f.args.kwarg] if a}
    bound |= {n.id for n in names if isinstance(n.ctx, ast.Store)}
    for n in names:
        if n.id not in bound:
            raise Unsupported(f'{n.id} is not defined')


def run_unit(unit, repo):
    path = os.path.join(repo, unit['file'])
    tree = ast.parse(open(path).read())
    unit['done'] = {}
    for m in unit.get('uses', ()):
        unit['done'].update([u['done'] for u in UNITS if u['module'] == m][0])
    ns = unit.get('namespace', 'Gen')
    out = [f'import {i}' for i in unit['imports']]
    out += ['', '/-!', f"# Transcription of `{unit['file']}`", '',
            'Written by `tools/transcribe.py`; do not edit.', '-/', '',
            'set_option linter.unusedVariables false', 'set_option linter.unusedSectionVars false', '',
            f'namespace Flory.{ns}', '', f"variable {unit['variables']}", '']
    for spec in unit['functions']:
        node = find(tree, spec)
        check_names(path, node)
        name = spec.get('as') or spec['name']
        spec['lean'] = name
        if spec.get('ignore'):
            node = Strip(spec['ignore']).visit(node)
        types = {}
        while True:
            f = Fun(unit, node, spec, types)
            binders, rty, lines, monadic = f.translate()
            if not f.changed:
                break
        unit['done'][spec['name']] = f.done
        first = node.body[1] if isinstance(node.body[0], ast.Expr) and \
            isinstance(node.body[0].value, ast.Constant) and len(node.body) > 1 else node.body[0]
        out.append(f"/-- `{spec.get('pycls', '') + '.' if spec.get('cls') else ''}{spec['name']}`"
                   f" (`{unit['file']}:{node.lineno}-{node.end_lineno}`, code from line {first.lineno}). -/")
        noncomp = 'noncomputable ' if unit.get('K') == 'ℝ' or f.diverges else ''
        head = f'{noncomp}def {name} ' + ' '.join(binders) + f' :'
        out += wrap(head)
        out.append(f'    {rty} :=' + (' do' if monadic else ''))
        out += ['  ' + l for l in lines]
        out.append('')
    out += [f'end Flory.{ns}', '']
    return '\n'.join(out)


def wrap(s, width=98):
    out, cur = [], ''
    depth = 0
    parts, p = [], ''
    for ch in s:
        depth += (ch in '({[') - (ch in ')}]')
        if ch == ' ' and depth == 0:
            parts.append(p)
            p = ''
        else:
            p += ch
    parts.append(p)
    for w in parts:
        if cur and len(cur) + 1 + len(w) > width:
            out.append(cur)
            cur = '    ' + w
        else:
            cur = cur + ' ' + w if cur else w
    return out + [cur]


def main():
    repo, out = '/repo', os.path.join(os.path.dirname(__file__), '..', 'lean', 'Verif', 'Gen')
    a = sys.argv[1:]
    check = '--check' in a
    if '--repo' in a:
        repo = a[a.index('--repo') + 1]
    if '--out' in a:
        out = a[a.index('--out') + 1]
    os.makedirs(out, exist_ok=True)
    loggers(repo)
    bad = 0
    for unit in UNITS:
        text = run_unit(unit, repo)
        p = os.path.join(out, unit['module'] + '.lean')
        if check:
            if not os.path.exists(p) or open(p).read() != text:
                print(p, 'differs')
                bad += 1
        else:
            open(p, 'w').write(text)
    if check:
        print(len(UNITS), 'modules,', bad, 'differ')
    sys.exit(bad > 0)


if __name__ == '__main__':
    main()
