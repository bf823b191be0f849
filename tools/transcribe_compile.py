"""Transcribe compilation, reading of attributes and `FloryHuggins` into Lean definitions.

    python3 tools/transcribe_compile.py            write lean/Verif/Gen/Compile.lean
    python3 tools/transcribe_compile.py --check    compare with the committed file
    python3 tools/transcribe_compile.py --repo DIR --out DIR

Objects are records of their attributes, as in `transcribe_objects.py`, whose translation of expressions and
statements is used.  Added are the constructors of compiled classes, `_compiled_impl`, with the names and
defaults of its parameters, properties that are only read, and the class `FloryHuggins`, whose attributes are
themselves objects: changing one of them puts the changed object in its place.  Anything not understood
raises an error.
"""
import ast, os, sys
from messages import loggers

sys.path.insert(0, os.path.dirname(os.path.abspath(__file__)))
from transcribe_objects import (Const, Fun, Raise, Unsupported, V, atom, binders, build, cite, emit_def, number,
                                record, ty)


class Fun2(Fun):
    """Reading and calling objects that are attributes or variables."""

    def sub(self, **kw):
        raise Unsupported('nested')

    def owner(self, v):
        return v.t[0] if isinstance(v, V) and isinstance(v.t, tuple) else None

    def read(self, v, name):
        f = dict(v.t[2]).get(name)
        if f and self.world.find_property(v.t[0], name) is None:
            return V(f, f'{v.code}.{name}')
        d = self.world.getters.get((v.t[0], name))
        if d:
            return self.let(d['ret'], f"{d['lean']} {v.code}", True)
        raise Unsupported(f'{v.t[0]}.{name}')

    def expr(self, e):
        if isinstance(e, ast.Attribute) and ast.unparse(e.value) != 'self' and ast.unparse(e) != 'np.float64':
            v = self.expr(e.value)
            if self.owner(v):
                return self.read(v, e.attr)
        if isinstance(e, ast.UnaryOp) and isinstance(e.op, ast.USub):
            v = self.expr(e.operand)
            if isinstance(v, V) and v.t == 'real':
                return V('real', f'(-{v.code})')
        if isinstance(e, ast.Subscript) and isinstance(e.slice, ast.Call) and \
                ast.unparse(e.slice.func) == 'np.triu_indices_from':
            c = e.slice
            if ast.unparse(c.args[0]) != ast.unparse(e.value) or len(c.args) != 1 or \
                    [k.arg for k in c.keywords] != ['k']:
                raise Unsupported(ast.unparse(e))
            v, k = self.expr(e.value), self.nat(self.expr(c.keywords[0].value))
            if v.t != 'nd':
                raise Unsupported(ast.unparse(e))
            return self.let('reals', f'NDArr.upper {v.code} {k}', True)
        return super().expr(e)

    def binop(self, e):
        if isinstance(e.op, (ast.Add, ast.Mult)):
            a, b = self.expr(e.left), self.expr(e.right)
            if all(isinstance(x, Const) or x.t in ('real', 'nat') for x in (a, b)) and \
                    any(isinstance(x, V) and x.t == 'real' for x in (a, b)):
                o = '+' if isinstance(e.op, ast.Add) else '*'
                return V('real', f'({self.real(a)} {o} {self.real(b)})')
        raise Unsupported(ast.unparse(e))

    def arguments(self, d, c):
        """Codes of the arguments of a call, in the order of the parameters."""
        given = {}
        names = [p for p, _ in d['params']]
        for p, a in zip(names, c.args):
            if p in d.get('keywords', ()):
                raise Unsupported('positional argument')
            given[p] = a
        if len(c.args) > len(names):
            raise Unsupported('too many arguments')
        for k in c.keywords:
            if k.arg not in names or k.arg in given:
                raise Unsupported('argument')
            given[k.arg] = k.value
        codes = []
        vals = {p: self.expr(a) for p, a in given.items()}
        for p, t in d['params']:
            if p not in vals:
                raise Unsupported('default')
            a = vals[p]
            if isinstance(a, Const) and t == 'nd':
                codes.append(f'(NDArr.scalar {self.real(a)})')
            elif isinstance(a, V) and a.t == t:
                codes.append(atom(a.code))
            elif t == 'real':
                codes.append(atom(self.real(a)))
            else:
                raise Unsupported(f'argument {p}')
        return codes

    def call(self, e):
        name = ast.unparse(e.func)
        cls = self.cls if name == 'cls' else name
        d = self.world.inits.get(cls)
        if d:
            return self.let(d['ret'], ' '.join([d['lean']] + self.arguments(d, e)), True)
        if name == 'np.zeros' and len(e.args) == 1 and not e.keywords:
            return self.let('nd', f'NDArr.full {self.shape(self.expr(e.args[0]))} 0', False)
        if isinstance(e.func, ast.Attribute) and ast.unparse(e.func.value) not in ('np', 'self'):
            m = e.func.attr
            v = self.expr(e.func.value)
            if self.owner(v) and m == 'compiled' and not e.args and \
                    [(k.arg, ast.unparse(k.value)) for k in e.keywords] == [(None, 'kwargs_full')]:
                d = self.world.objects[v.t[0]]
                return self.let(d['ret'], f"{d['base']}.compiled ({v.t[0]}.object {v.code}) kwargs_full", True)
            if isinstance(v, V) and v.t == 'nd' and not e.keywords:
                if m == 'sum' and not e.args:
                    return self.let('real', f'NDArr.sum {v.code}', False)
                if m == 'min' and not e.args:
                    return self.let('real', f'NDArr.min {v.code}', True)
                if m == 'astype' and [ast.unparse(a) for a in e.args] == ['np.float64']:
                    return v
            # the numbers of components are assumed to fit
            if isinstance(v, V) and v.t == 'ndn' and m == 'astype' and not e.keywords and \
                    [ast.unparse(a) for a in e.args] == ['np.int32']:
                return v
        raise Unsupported(ast.unparse(e))

    def assign(self, t, v):
        if isinstance(t, ast.Attribute) and isinstance(t.value, ast.Attribute) and \
                ast.unparse(t.value.value) == 'self':
            o = self.attribute(t.value.attr)
            d = self.world.setters.get((self.owner(o), t.attr))
            if not d or v.t != d['type']:
                raise Unsupported(ast.unparse(t))
            self.emit(f"let {o.code} : {ty(o.t)} ← {d['lean']} {o.code} {atom(v.code)}")
            return
        super().assign(t, v)

    def method(self, c):
        f = c.func
        if not (isinstance(f, ast.Attribute) and isinstance(f.value, ast.Attribute) and
                isinstance(f.value.value, ast.Name)):
            raise Unsupported(ast.unparse(c))
        obj = self.env.get(f.value.value.id)
        part = self.expr(f.value)
        d = self.world.methods.get((self.owner(part), f.attr))
        if not d or not self.owner(obj):
            raise Unsupported(ast.unparse(c))
        codes = self.arguments(d, c)
        p = self.let(part.t, ' '.join([d['lean'], part.code] + codes), True)
        self.emit(f'let {obj.code} : {ty(obj.t)} := {{ {obj.code} with {f.value.attr} := {p.code} }}')

    def super_init(self, c):
        """As in the base class, with the statements translated here."""
        base = self.world.base(self.cls)
        node = self.world.classes[base]['methods']['__init__']
        names = [a.arg for a in node.args.args[1:]]
        if c.keywords or len(c.args) != len(names):
            raise Unsupported('argument')
        sub = Fun2(self.world, self.cls, {}, self.attrs, self.lines, self.depth, self.counter, self.suffix + "'")
        sub.current = base
        for n, a in zip(names, c.args):
            v = self.expr(a)
            sub.emit(f'let {n}{sub.suffix} : {ty(v.t)} := {v.code}')
            sub.env[n] = V(v.t, n + sub.suffix)
        sub.block(node.body)


MORE = ['flory/constraint/no.py', 'flory/free_energy/base.py', 'flory/free_energy/flory_huggins.py']

COMPILED = [
    ('FloryHugginsInteractionCompiled', [('chis', 'nd'), ('chis_shift', 'real')]),
    ('IdealGasEntropyCompiled', [('sizes', 'nd')]),
    ('IdealGasPolydispersedEntropyCompiled', [('sizes', 'nd'), ('num_comp_per_feat', 'ndn')]),
    ('CanonicalEnsembleCompiled', [('phi_means', 'nd')]),
    ('GrandCanonicalEnsembleCompiled', [('scaled_activity', 'nd')]),
    ('NoConstraintCompiled', [('num_feat', 'nat')]),
    ('LinearLocalConstraintCompiled', [('Cs', 'nd'), ('Ts', 'nd'), ('acceptance_ratio', 'real'),
                                       ('elasticity', 'real')]),
    ('LinearGlobalConstraintCompiled', [('Cs', 'nd'), ('Ts', 'nd'), ('acceptance_ratio', 'real'),
                                        ('elasticity', 'real')]),
]
# class of the object, class in which the method is looked up, class with `compiled`
IMPLS = [
    ('FloryHugginsInteraction', 'FloryHugginsInteractionBase', None),
    ('FloryHugginsInteraction', 'FloryHugginsInteraction', 'InteractionBase'),
    ('FloryHugginsBlockInteraction', 'FloryHugginsBlockInteraction', 'InteractionBase'),
    ('IdealGasEntropy', 'IdealGasEntropy', 'EntropyBase'),
    ('IdealGasPolydispersedEntropy', 'IdealGasPolydispersedEntropy', 'EntropyBase'),
    ('CanonicalEnsemble', 'CanonicalEnsemble', 'EnsembleBase'),
    ('GrandCanonicalEnsemble', 'GrandCanonicalEnsemble', 'EnsembleBase'),
    ('NoConstraint', 'NoConstraint', 'ConstraintBase'),
    ('LinearLocalConstraint', 'LinearLocalConstraint', 'ConstraintBase'),
    ('LinearGlobalConstraint', 'LinearGlobalConstraint', 'ConstraintBase'),
]
GETTERS = [
    ('FloryHugginsInteraction', 'chis'), ('FloryHugginsInteraction', 'independent_entries'),
    ('FloryHugginsBlockInteraction', 'chis'), ('FloryHugginsBlockInteraction', 'chis_feat'),
    ('FloryHugginsBlockInteraction', 'num_comp_per_feat'), ('IdealGasEntropy', 'sizes'),
    ('IdealGasPolydispersedEntropy', 'sizes'), ('CanonicalEnsemble', 'num_comp'),
    ('CanonicalEnsemble', 'phi_means'), ('GrandCanonicalEnsemble', 'num_comp'),
    ('GrandCanonicalEnsemble', 'scaled_activity'), ('LinearLocalConstraint', 'Cs'),
    ('LinearLocalConstraint', 'Ts'), ('LinearGlobalConstraint', 'Cs'), ('LinearGlobalConstraint', 'Ts'),
]


def fields(rec, attrs):
    """Attributes of `self` and the lines that name them."""
    out, pre = {}, []
    for a, v in attrs.items():
        if v is None:
            out[a] = None
        else:
            n = 'self' + ('' if a.startswith('_') else '_') + a
            pre.append(f'  let {n} : {ty(v.t)} := self.{a}')
            out[a] = V(v.t, n)
    return out, pre


def parameters(node):
    a = node.args
    if a.vararg or a.kwarg or a.posonlyargs:
        raise Unsupported('parameters')
    pos, kwo = a.args[1:], a.kwonlyargs
    defaults = dict(zip([x.arg for x in pos][len(pos) - len(a.defaults):], a.defaults))
    defaults.update({x.arg: d for x, d in zip(kwo, a.kw_defaults) if d is not None})
    return [x.arg for x in pos], [x.arg for x in kwo], defaults


def default_values(out, node, file, name, lean, params):
    _, _, defaults = parameters(node)
    if [p for p in defaults] != [p for p, _ in params]:
        raise Unsupported('defaults')
    types, values = [], []
    for p, t in params:
        d = defaults[p]
        if not isinstance(d, ast.Constant):
            raise Unsupported('default')
        if t in ('optnd', 'rng'):
            if d.value is not None:
                raise Unsupported('default')
            if t == 'rng':
                continue
            v = 'none'
        elif t == 'bool':
            if not isinstance(d.value, bool):
                raise Unsupported('default')
            v = 'true' if d.value else 'false'
        else:
            if type(d.value) not in (int, float):
                raise Unsupported('default')
            v = number(d.value)
        types.append(ty(t))
        values.append(v)
    v = values[0] if len(values) == 1 else '(' + ', '.join(values) + ')'
    out.append(f'/-- Defaults of the parameters of `{name}` ({cite(file, node)}). -/')
    out.append(f"noncomputable def {lean} : {' × '.join(types)} := {v}")
    out.append('')


def constructor(w, out, cls, params, decorated):
    node = w.classes[cls]['methods']['__init__']
    pos, kwo, _ = parameters(node)
    if pos + kwo != [p for p, _ in params]:
        raise Unsupported('parameters')
    f = Fun2(w, cls, {p: V(t, p) for p, t in params}, {})
    f.current = cls
    f.block(node.body)
    w.classes[cls]['attrs'] = dict(f.attrs)
    rec = (cls, f'{cls}Attrs', tuple((a, v.t) for a, v in f.attrs.items() if v is not None))
    w.classes[cls]['record'] = rec
    c = cite(w.classes[cls]['file'], node)
    out.append(f'/-- Attributes of a `{cls}` object after its constructor ({c}). -/')
    out.append(f'structure {cls}Attrs where')
    out += [f'  {a} : {ty(t)}' for a, t in rec[2]] + ['']
    f.emit(f'pure {record(f.attrs, cls)}')
    emit_def(out, f'`{cls}.__init__` ({c}).', f'{cls}.init', params, rec, f.lines)
    w.inits[cls] = {'lean': f'{cls}.init', 'params': params, 'ret': rec, 'keywords': kwo}


def spec_fields(w, file, cls):
    """Fields that `@jitclass` declares."""
    (node,) = [x for x in w.trees[file].body if isinstance(x, ast.ClassDef) and x.name == cls]
    (dec,) = node.decorator_list
    if ast.unparse(dec.func) != 'jitclass':
        raise Unsupported('decorator')
    return [x.elts[0].value for x in dec.args[0].elts]


def result(f):
    if f.ret is None:
        raise Unsupported('no result')
    f.emit(f'pure {f.ret.code}')
    return f.ret.t


def run(repo):
    w, _ = build(repo, MORE)
    w.getters, w.setters, w.objects = {}, {}, {}
    for cls, name, t in [('FloryHugginsInteraction', 'chis', 'nd'), ('IdealGasEntropy', 'sizes', 'nd')]:
        w.setters[cls, name] = {'lean': f'{cls}.set_{name}', 'type': t}
    for cls, d in w.inits.items():
        d['keywords'] = parameters(w.classes[cls]['methods']['__init__'])[1]
    for (cls, m), d in w.methods.items():
        d['keywords'] = parameters(w.classes[cls]['methods'][m])[1]
    out = ['import Verif.Model.Compile', 'import Verif.Gen.Objects', 'import Verif.Gen.FinderObject', '', '/-!',
           '# Transcription of compilation, reading of attributes and `FloryHuggins`', '',
           'Written by `tools/transcribe_compile.py`; do not edit.', '-/', '',
           'set_option linter.unusedVariables false', '', 'namespace Flory.Gen', '']
    for cls, params in COMPILED:
        constructor(w, out, cls, params, True)
        if set(spec_fields(w, w.classes[cls]['file'], cls)) != set(w.classes[cls]['attrs']):
            raise Unsupported('fields of a compiled class')
    constructor(w, out, 'NoConstraint', [('num_feat', 'nat')], False)
    for cls, owner, base in IMPLS:
        node = w.classes[owner]['methods']['_compiled_impl']
        pos, kwo, defaults = parameters(node)
        params = [(p, 'real') for p in pos + kwo]
        rec = w.classes[cls]['record']
        attrs, pre = fields(rec, w.classes[cls]['attrs'])
        f = Fun2(w, cls, {p: V(t, p) for p, t in params}, attrs)
        f.lines += pre
        f.block(node.body)
        ret = result(f)
        c = cite(w.classes[owner]['file'], node)
        emit_def(out, f'`{owner}._compiled_impl` ({c}).', f'{owner}.compiled_impl', [('self', rec)] + params, ret,
                 f.lines)
        if base is None:
            default_values(out, node, w.classes[owner]['file'], f'{owner}._compiled_impl',
                           f'{owner}.compiled_impl_default', params)
            continue
        if base not in w.chain(cls) or 'compiled' not in w.classes[base]['methods']:
            raise Unsupported('base class')
        for k in w.chain(cls):
            if k != base and 'compiled' in w.classes[k]['methods']:
                raise Unsupported('compiled')
        out.append(f'/-- A `{cls}` as an object that can be compiled: names and defaults of the parameters of')
        out.append(f'`_compiled_impl` ({c}). -/')
        out.append(f'noncomputable def {cls}.object (self : {ty(rec)}) : InstObj ({ty(ret)}) where')
        out.append('  params := [' + ', '.join(f'"{p}"' for p, _ in params) + ']')
        args = [f'((kw "{p}").getD {number(defaults[p].value)})' for p, _ in params]
        out.append(f"  impl kw := {' '.join([owner + '.compiled_impl', 'self'] + args)}")
        out.append('')
        w.objects[cls] = {'ret': ret, 'base': base}
    for cls, name in GETTERS:
        node = w.find_property(cls, name)
        (owner,) = [k for k in w.chain(cls) if w.classes[k]['props'].get(name) is node]
        rec = w.classes[cls]['record']
        attrs, pre = fields(rec, w.classes[cls]['attrs'])
        f = Fun2(w, cls, {}, attrs)
        f.lines += pre
        f.block(node.body)
        ret = result(f)
        emit_def(out, f"`{cls}.{name}` ({cite(w.classes[owner]['file'], node)}).", f'{cls}.get_{name}',
                 [('self', rec)], ret, f.lines)
        w.getters[cls, name] = {'lean': f'{cls}.get_{name}', 'ret': ret}
    cls, file = 'FloryHuggins', 'flory/free_energy/flory_huggins.py'
    constructor(w, out, cls, [('num_comp', 'nat'), ('chis', 'nd'), ('sizes', 'optnd')], False)
    default_values(out, w.classes[cls]['methods']['__init__'], file, f'{cls}.__init__', f'{cls}.init_defaults',
                   [('sizes', 'optnd')])
    rec = w.classes[cls]['record']
    for name in ('chis', 'sizes'):
        node = w.find_property(cls, name)
        attrs, pre = fields(rec, w.classes[cls]['attrs'])
        f = Fun2(w, cls, {}, attrs)
        f.lines += pre
        f.block(node.body)
        ret = result(f)
        emit_def(out, f'`{cls}.{name}` ({cite(file, node)}).', f'{cls}.get_{name}', [('self', rec)], ret, f.lines)
        node = w.find_setter(cls, name)
        attrs, pre = fields(rec, w.classes[cls]['attrs'])
        params = [(node.args.args[1].arg, 'nd')]
        f = Fun2(w, cls, {p: V(t, p) for p, t in params}, attrs)
        f.lines += pre
        f.block(node.body)
        f.emit(f'pure {record(f.attrs, cls)}')
        if set(f.attrs) != set(w.classes[cls]['attrs']):
            raise Unsupported('new attribute')
        emit_def(out, f'`{cls}.{name}` setter ({cite(file, node)}).', f'{cls}.set_{name}', [('self', rec)] + params,
                 rec, f.lines)
    for name, params in [
            ('from_uniform', [('num_comp', 'nat'), ('chi', 'real'), ('sizes', 'optnd'),
                              ('vanishing_diagonal', 'bool')]),
            ('from_random_normal', [('num_comp', 'nat'), ('chi_mean', 'real'), ('chi_std', 'real'),
                                    ('sizes', 'optnd'), ('vanishing_diagonal', 'bool'), ('rng', 'rng')])]:
        node = w.classes[cls]['methods'][name]
        if [ast.unparse(d) for d in node.decorator_list] != ['classmethod']:
            raise Unsupported('decorator')
        pos, kwo, _ = parameters(node)
        if pos + kwo != [p for p, _ in params]:
            raise Unsupported('parameters')
        f = Fun2(w, cls, {p: V(t, p) for p, t in params}, {})
        f.block(node.body)
        ret = result(f)
        emit_def(out, f'`{cls}.{name}` ({cite(file, node)}).', f'{cls}.{name}', params, ret, f.lines)
        default_values(out, node, file, f'{cls}.{name}', f'{cls}.{name}_defaults',
                       [(p, t) for p, t in params if p not in ('num_comp', 'chi')])
    for name in ('interaction_compiled', 'entropy_compiled'):
        node = w.classes['FreeEnergyBase']['methods'][name]
        if [a.arg for a in node.args.args] != ['self'] or not node.args.kwarg or \
                node.args.kwarg.arg != 'kwargs_full':
            raise Unsupported('parameters')
        attrs, pre = fields(rec, w.classes[cls]['attrs'])
        f = Fun2(w, cls, {}, attrs)
        f.lines += pre
        f.block(node.body)
        ret = result(f)
        c = cite('flory/free_energy/base.py', node)
        out.append(f'/-- `FreeEnergyBase.{name}` for a `FloryHuggins` object ({c}). -/')
        out.append(f'noncomputable def {cls}.{name} (self : {ty(rec)}) (kwargs_full : Dict ℝ) :')
        out.append(f'    Py ({ty(ret)}) := do')
        out += f.lines + ['']
    out.append('end Flory.Gen')
    return '\n'.join(out) + '\n'


def main():
    repo, out = '/repo', os.path.join(os.path.dirname(__file__), '..', 'lean', 'Verif', 'Gen')
    a = sys.argv[1:]
    if '--repo' in a:
        repo = a[a.index('--repo') + 1]
    if '--out' in a:
        out = a[a.index('--out') + 1]
    os.makedirs(out, exist_ok=True)
    loggers(repo)
    text = run(repo)
    p = os.path.join(out, 'Compile.lean')
    if '--check' in a:
        bad = not os.path.exists(p) or open(p).read() != text
        print('1 modules,', int(bad), 'differ')
        sys.exit(bad)
    open(p, 'w').write(text)


if __name__ == '__main__':
    main()
