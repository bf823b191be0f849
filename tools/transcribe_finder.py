"""Transcribe the constructor and the methods of CoexistingPhasesFinder that change it into Lean definitions.

    python3 tools/transcribe_finder.py            write lean/Verif/Gen/FinderObject.lean
    python3 tools/transcribe_finder.py --check    compare with the committed file
    python3 tools/transcribe_finder.py --repo DIR --out DIR

The object is the record of its attributes; an attribute that was not assigned is `none`, and reading it
raises `AttributeError`.  Every statement becomes one or a few lines in the monad `Act` of
`Verif/Model/FinderObject.lean`, in which changes made before an exception stay.  Messages of the logger
have no effect; the logger must be the first attribute assigned.  The clock, the generator and a constraint
initialized for another number of compartments than the type says are parameters.  Also written: which of the
attributes `num_comp` and `num_feat` the compiled classes have, `filter_kwargs` and the `compiled` methods.
Anything not understood raises an error.
"""
import ast, os, sys
from fractions import Fraction
from messages import creation, is_message, loggers, message
from transcribe_objects import Unsupported, Const, V, World, FILES, number, atom, cite

FILE = 'flory/mcmp/finder.py'
CLS = 'CoexistingPhasesFinder'
TYPES = {'nd': 'NDArr ℝ', 'nat': 'ℕ', 'real': 'ℝ', 'rat': 'ℚ', 'int': 'ℤ', 'str': 'String', 'bool': 'Bool',
         'dict': 'Dict ℝ', 'optnat': 'Option ℕ', 'optgen': 'Option G', 'gen': 'G',
         'objI': 'InstObj AnyInteraction', 'objE': 'InstObj AnyEntropy', 'objS': 'InstObj AnyEnsemble',
         'objC': 'InstObj AnyConsNew', 'objs': 'List (InstObj AnyConsNew)',
         'instI': 'AnyInteraction', 'instE': 'AnyEntropy', 'instS': 'AnyEnsemble', 'new': 'AnyConsNew',
         'instC': 'PackedCons M', 'insts': 'List (PackedCons M)', 'attrs': 'InstAttrs',
         'consarg': 'ConsArg', 'indarg': 'IndArg', 'item': 'Option (Dict ℝ)', 'items': 'List (Option (Dict ℝ))',
         'diag': 'Option (Diagnostics ℝ)'}
COMPILED = {'objI': 'instI', 'objE': 'instE', 'objS': 'instS', 'objC': 'new'}
ATTRS = {'_interaction': 'instI', '_entropy': 'instE', '_ensemble': 'instS', '_num_comp': 'nat',
         '_num_feat': 'nat', '_num_part': 'nat', '_constraints': 'insts', '_rng_is_external': 'bool',
         '_rng_seed': 'int', '_rng': 'gen', '_max_steps': 'rat', '_convergence_criterion': 'str',
         '_tolerance': 'real', '_interval': 'int', '_progress': 'bool', '_random_std': 'real',
         '_acceptance_Js': 'real', '_acceptance_omega': 'real', '_Js_step_upper_bound': 'real',
         '_kill_threshold': 'real', '_revive_scaler': 'real', '_max_revive_per_compartment': 'int',
         '_diagnostics': 'diag', '_Js': 'nd', '_omegas': 'nd', '_phis_feat': 'nd', '_phis_comp': 'nd',
         '_revive_count_left': 'int', '_kwargs_for_instances': 'dict'}
POSITIONAL = {'interaction': 'objI', 'entropy': 'objE', 'ensemble': 'objS', 'constraints': 'consarg'}
KEYWORD = {'num_part': 'optnat', 'rng': 'optgen', 'max_steps': 'rat', 'convergence_criterion': 'str',
           'tolerance': 'real', 'interval': 'int', 'progress': 'bool', 'random_std': 'real',
           'acceptance_Js': 'real', 'acceptance_omega': 'real', 'Js_step_upper_bound': 'real',
           'kill_threshold': 'real', 'revive_scaler': 'real', 'max_revive_per_compartment': 'int'}
METHODS = {'check_instance': {'compiled_instance': 'attrs'}, 'check_field': {'field': 'nd'},
           'reset_revive': {}, 'reinitialize_constraint': {}, 'reinitialize_random': {},
           'reinitialize_from_omegas': {'omegas': 'nd'}, 'reinitialize_from_phis': {'phis': 'nd'},
           'set_interaction': {'interaction': 'objI', 'if_reset_revive': 'bool'},
           'set_entropy': {'entropy': 'objE', 'if_reset_revive': 'bool'},
           'set_ensemble': {'ensemble': 'objS', 'if_reset_revive': 'bool'},
           'set_constraints': {'constraints': 'consarg', 'if_reset_revive': 'bool', 'kwargs_individual': 'indarg'}}
ERRORS = {'ValueError': 'valueError', 'ComponentNumberError': 'componentNumberError',
          'FeatureNumberError': 'featureNumberError'}
EXTERNAL = {'gen': '(gen : Rng G ℝ)', 'other': '(other : ℕ → PackedCons M → PackedCons M)',
            'newGen': '(newGen : ℤ → G)', 'now': '(now : ℤ)'}
# the compiled classes of every kind, and where the model keeps the sizes of an instance
KINDS = {'instI': (['FloryHugginsInteractionCompiled'], {'num_feat': 'x.1'}),
         'instE': (['IdealGasEntropyCompiled', 'IdealGasPolydispersedEntropyCompiled'],
                   {'num_comp': 'x.numComp', 'num_feat': 'x.numFeat'}),
         'instS': (['CanonicalEnsembleCompiled', 'GrandCanonicalEnsembleCompiled'], {'num_comp': 'x.1'}),
         'instC': (['NoConstraintCompiled', 'LinearLocalConstraintCompiled', 'LinearGlobalConstraintCompiled'],
                   {'num_feat': 'x.numFeat'})}
NAMES = {'instI': 'interactionAttrs', 'instE': 'entropyAttrs', 'instS': 'ensembleAttrs', 'instC': 'constraintAttrs'}


def plain(x):
    q = Fraction(str(x)) if isinstance(x, float) else Fraction(x)
    return str(q.numerator) if q.denominator == 1 else f'{q.numerator} / {q.denominator}'


def strip(body):
    return [s for s in body if not (isinstance(s, ast.Expr) and isinstance(s.value, ast.Constant))
            and not isinstance(s, ast.Pass)]


class Fun:
    def __init__(self, world, env, done, lines=None, depth=1, counter=None, external=None, init=None):
        self.world, self.env, self.done = world, env, done
        self.lines = [] if lines is None else lines
        self.depth, self.counter = depth, counter or [0]
        self.external = set() if external is None else external
        self.init = init  # attributes assigned so far, in a constructor
        self.ret = None

    def sub(self, extra=None):
        return Fun(self.world, {**self.env, **(extra or {})}, self.done, self.lines, self.depth + 1, self.counter,
                   self.external, self.init)

    def emit(self, s):
        self.lines.append('  ' * self.depth + s)

    def let(self, t, code, monadic):
        self.counter[0] += 1
        n = f't{self.counter[0]}'
        self.emit(f"let {n} : {TYPES[t]} {'←' if monadic else ':='} {code}")
        return V(t, n)

    def ts(self, *vs):
        return [v.t if isinstance(v, V) else 'const' for v in vs]

    def coerce(self, v, t):
        """Code of `v` where a value of type `t` is needed."""
        if isinstance(v, Const):
            x = v.value
            if t == 'bool' and isinstance(x, bool):
                return str(x).lower()
            if t == 'str' and isinstance(x, str):
                return '"' + x + '"'
            if t in ('optnat', 'optgen') and x is None:
                return 'none'
            if t in ('indarg', 'consarg') and x is None:
                return '.none'
            if isinstance(x, (int, float)) and not isinstance(x, bool):
                if t in ('real', 'rat') or t == 'int' and isinstance(x, int) or \
                        t == 'nat' and isinstance(x, int) and x >= 0:
                    return plain(x)
            raise Unsupported(f'{x} as {t}')
        if v.t == t:
            return v.code
        if v.t == 'nat' and t == 'int':
            return f'({v.code} : ℤ)'
        raise Unsupported(f'{v.t} as {t}')

    # ------------------------------------------------------------ expressions
    def attribute(self, name):
        if name not in ATTRS:
            raise Unsupported(f'attribute {name}')
        return self.let(ATTRS[name], f'Act.read fun self => self.{name}', True)

    def merged(self, d):
        """`{**a, **b}`"""
        if not isinstance(d, ast.Dict) or any(k is not None for k in d.keys) or not d.values:
            raise Unsupported('dictionary')
        code = None
        for x in d.values:
            v = self.expr(x)
            if self.ts(v) == ['indarg']:
                v = self.let('dict', f'Act.lift {v.code}.mapping', True)
            elif self.ts(v) == ['item']:
                v = self.let('dict', f'Act.lift (itemMapping {v.code})', True)
            elif self.ts(v) != ['dict']:
                raise Unsupported('not a dictionary')
            code = v.code if code is None else f'({code}.merge {v.code})'
        return code

    def expr(self, e):
        if isinstance(e, ast.Constant):
            return Const(e.value)
        if isinstance(e, ast.Name):
            if e.id in self.env:
                return self.env[e.id]
            raise Unsupported(f'unknown variable {e.id}')
        if isinstance(e, ast.Attribute):
            if ast.unparse(e.value) == 'self':
                return self.attribute(e.attr)
            if isinstance(e.value, ast.Name) and (e.value.id, e.attr) in self.env:
                return self.env[(e.value.id, e.attr)]
            v = self.expr(e.value)
            if self.ts(v) == ['instE'] and e.attr in KINDS['instE'][1]:
                c = self.let('attrs', f'{NAMES["instE"]} {v.code}', False)
                return self.let('nat', f'Act.read fun _ => {c.code}.{e.attr}', True)
            raise Unsupported(ast.unparse(e))
        if isinstance(e, ast.Dict) and not e.keys:
            return V('emptydict', '')
        if isinstance(e, ast.BinOp) and isinstance(e.op, ast.Mult):
            if ast.unparse(e.left) == '[{}]' and isinstance(e.right, ast.Call) and \
                    ast.unparse(e.right.func) == 'len' and len(e.right.args) == 1:
                v = self.expr(e.right.args[0])
                if self.ts(v) == ['objs']:
                    return V('indarg', f'IndArg.dicts (List.replicate {v.code}.length [])')
            a, b = self.expr(e.left), self.expr(e.right)
            t = 'int' if 'int' in self.ts(a, b) else 'nat'
            return V(t, f'{self.coerce(a, t)} * {self.coerce(b, t)}')
        if isinstance(e, ast.IfExp):
            a = self.expr(e.body)
            if isinstance(e.test, ast.Name) and self.ts(self.env[e.test.id]) == ['optnat'] and \
                    ast.unparse(e.body) == e.test.id:
                n = e.test.id
                mark = len(self.lines)
                b = self.expr(e.orelse)
                pre, self.lines[mark:] = self.lines[mark:], []
                self.counter[0] += 1
                r = f't{self.counter[0]}'
                self.emit(f'let {r} : ℕ ← (if {n}.getD 0 ≠ 0 then pure ({n}.getD 0) else do')
                self.lines.extend('  ' + x for x in pre)
                self.emit(f"  pure ({self.coerce(b, 'nat')}))")
                return V('nat', r)
            raise Unsupported(ast.unparse(e))
        if isinstance(e, ast.Call):
            return self.call(e)
        raise Unsupported(ast.unparse(e))

    def pair(self, e):
        if isinstance(e, ast.Tuple) and len(e.elts) == 2:
            return [self.coerce(self.expr(x), 'nat') for x in e.elts]
        raise Unsupported('shape')

    def call(self, e):
        name = ast.unparse(e.func)
        star = [k.value for k in e.keywords if k.arg is None]
        if isinstance(e.func, ast.Attribute) and e.func.attr == 'compiled' and not e.args and len(star) == 1 and \
                len(e.keywords) == 1:
            v = self.expr(e.func.value)
            (t,) = self.ts(v)
            if t not in COMPILED:
                raise Unsupported('compiled')
            if isinstance(star[0], ast.Name):
                d = self.coerce(self.expr(star[0]), 'dict')
            else:
                d = self.merged(star[0])
            base = {'objI': 'InteractionBase', 'objE': 'EntropyBase', 'objS': 'EnsembleBase',
                    'objC': 'ConstraintBase'}[t]
            return self.let(COMPILED[t], f'Act.lift ({base}.compiled {v.code} {d})', True)
        if e.keywords:
            raise Unsupported(ast.unparse(e))
        if name == 'NoConstraintCompiled' and len(e.args) == 1:
            return V('new', f"⟨{self.coerce(self.expr(e.args[0]), 'nat')}, ConsNew.no⟩")
        if name == 'np.full' and len(e.args) == 3 and ast.unparse(e.args[2]) == 'float':
            if isinstance(e.args[0], ast.Tuple):
                s = self.pair(e.args[0])
            else:
                s = [self.coerce(self.expr(e.args[0]), 'nat')]
            x = self.coerce(self.expr(e.args[1]), 'real')
            return V('nd', f"NDArr.full [{', '.join(s)}] {atom(x)}")
        if name == 'np.ones_like' and len(e.args) == 1:
            v = self.coerce(self.expr(e.args[0]), 'nd')
            return V('nd', f'NDArr.full {v}.shape 1')
        if name == 'np.array' and len(e.args) == 1:
            return V('nd', self.coerce(self.expr(e.args[0]), 'nd'))
        if name == 'int' and ast.unparse(e) == 'int(datetime.now().timestamp())':
            self.external.add('now')
            return V('int', 'now')
        if name == 'np.random.default_rng' and len(e.args) == 1:
            self.external.add('newGen')
            return V('gen', f"newGen {self.coerce(self.expr(e.args[0]), 'int')}")
        if name == 'self._rng.normal' and len(e.args) == 3:
            self.external.add('gen')
            g = self.attribute('_rng')
            loc, scale = [atom(self.coerce(self.expr(x), 'real')) for x in e.args[:2]]
            r, c = self.pair(e.args[2])
            self.counter[0] += 1
            n = f't{self.counter[0]}'
            self.emit(f'let {n} : NDArr ℝ × G ← Act.lift (rngNormal gen {loc} {scale} {r} {c} {g.code})')
            self.emit(f'Act.write fun self => {{ self with _rng := some {n}.2 }}')
            return V('nd', f'{n}.1')
        if name == 'self._interaction.potential' and len(e.args) == 1:
            i = self.attribute('_interaction')
            return self.let('nd', f"Act.lift (potentialND {i.code} {self.coerce(self.expr(e.args[0]), 'nd')})", True)
        if name.startswith('self.') and name[5:] in self.done:
            d = self.done[name[5:]]
            if len(e.args) != len(d['params']):
                raise Unsupported('arguments')
            args = []
            for x, t in zip(e.args, d['params']):
                v = self.expr(x)
                if t == 'attrs' and self.ts(v)[0] in NAMES:
                    args.append(f'({NAMES[v.t]} {v.code})')
                else:
                    args.append(atom(self.coerce(v, t)))
            self.external |= d['external']
            code = ' '.join([f'{CLS}.{name[5:]}', *sorted(d['external']), *args])
            if d['ret'] is None:
                self.emit(code)
                return None
            return self.let(d['ret'], code, True)
        raise Unsupported(ast.unparse(e))

    # ------------------------------------------------------------ statements
    def test(self, t):
        """Code of a condition that is a Bool."""
        if isinstance(t, ast.Name):
            v = self.env[t.id]
            if self.ts(v) == ['bool']:
                return v.code
            if self.ts(v) == ['consarg']:
                return f'{v.code}.truthy'
        if isinstance(t, ast.Compare) and len(t.ops) == 1:
            a = t.left
            if isinstance(t.ops[0], ast.Is) and ast.unparse(t.comparators[0]) == 'None':
                v = self.expr(a)
                if self.ts(v) == ['indarg']:
                    return f'{v.code}.isNone'
                raise Unsupported('is None')
            if isinstance(t.ops[0], (ast.NotEq, ast.Eq)):
                o = '≠' if isinstance(t.ops[0], ast.NotEq) else '='
                b = t.comparators[0]
                if all(isinstance(x, ast.Attribute) and x.attr == 'shape' for x in (a, b)):
                    u, v = [self.coerce(self.expr(x.value), 'nd') for x in (a, b)]
                    return f'decide ({u}.shape {o} {v}.shape)'
                u, v = [self.coerce(self.expr(x), 'nat') for x in (a, b)]
                return f'decide ({u} {o} {v})'
        if isinstance(t, ast.BoolOp) and isinstance(t.op, ast.And) and len(t.values) == 2:
            h = t.values[0]
            if isinstance(h, ast.Call) and ast.unparse(h.func) == 'hasattr' and isinstance(h.args[0], ast.Name) and \
                    self.ts(self.env[h.args[0].id]) == ['attrs']:
                n, a = h.args[0].id, ast.literal_eval(h.args[1])
                if a not in ('num_comp', 'num_feat'):
                    raise Unsupported('hasattr')
                self.counter[0] += 1
                r = f't{self.counter[0]}'
                self.emit(f'let {r} : Bool ← (match {n}.{a} with')
                self.emit('  | none => pure false')
                self.emit('  | some value => do')
                s = self.sub({(n, a): V('nat', 'value')})
                s.depth += 1
                s.emit(f'pure ({s.test(t.values[1])}))')
                return r
        raise Unsupported(ast.unparse(t))

    def store(self, attr, v):
        if attr not in ATTRS:
            raise Unsupported(f'attribute {attr}')
        t = ATTRS[attr]
        if isinstance(v, V) and v.t == 'emptydict' and t == 'diag':
            code = 'none'
        else:
            code = self.coerce(v, t)
        self.emit(f'Act.write fun self => {{ self with {attr} := some {atom(code)} }}')
        if self.init is not None:
            self.init.add(attr)

    def branch(self, body, extra=None, head=None):
        s = self.sub(extra)
        if head:
            s.emit(head)
            s.depth += 1
        if not s.block(body):
            s.emit('pure ()')

    def block(self, body):
        """True if the block ended with `return`."""
        for k, s in enumerate(strip(body)):
            if isinstance(s, ast.Return):
                if k != len(strip(body)) - 1:
                    raise Unsupported('after return')
                self.ret = self.expr(s.value)
                self.emit(f'pure {self.ret.code}')
                return True
            if isinstance(s, ast.Raise):
                e = s.exc.func if isinstance(s.exc, ast.Call) else s.exc
                self.emit(f'Act.raise .{ERRORS[ast.unparse(e)]}')
                if k != len(strip(body)) - 1:
                    raise Unsupported('after raise')
                return True
            self.statement(s)
        return False

    def statement(self, s):
        if isinstance(s, ast.AnnAssign) and s.value is not None:
            self.assign(s.target, s.value)
            return
        if isinstance(s, ast.Assign) and len(s.targets) == 1:
            self.assign(s.targets[0], s.value)
            return
        if isinstance(s, ast.Expr) and isinstance(s.value, ast.Call):
            c = s.value
            name = ast.unparse(c.func)
            if is_message(c):
                if not message(c):
                    raise Unsupported('message')
                return
            if name == 'self._constraints.append' and len(c.args) == 1 and not c.keywords:
                # the list is looked up before the argument is evaluated
                l = self.attribute('_constraints')
                v = self.coerce(self.expr(c.args[0]), 'new')
                self.emit(f'Act.write fun self => {{ self with _constraints := some ({l.code} ++ '
                          f'[PackedCons.ofNew {v}]) }}')
                return
            if self.call(c) is not None:
                raise Unsupported('value not used')
            return
        if isinstance(s, ast.For) and not s.orelse:
            self.loop(s)
            return
        if isinstance(s, ast.If):
            self.conditional(s)
            return
        raise Unsupported(ast.unparse(s))

    def assign(self, target, value):
        if isinstance(target, ast.Attribute) and ast.unparse(target.value) == 'self':
            if target.attr == '_logger':
                if self.init is None or self.init or not creation(value):
                    raise Unsupported('logger')
                self.init.add('_logger')
                return
            if self.init is not None and '_logger' not in self.init:
                raise Unsupported('logger is not first')
            if isinstance(value, ast.List) and not value.elts and target.attr == '_constraints':
                self.store('_constraints', V('insts', '[]'))
                return
            self.store(target.attr, self.expr(value))
            return
        if isinstance(target, ast.Name):
            v = self.expr(value)
            if not isinstance(v, V):
                raise Unsupported('constant')
            self.emit(f'let {target.id} : {TYPES[v.t]} := {v.code}')
            self.env[target.id] = V(v.t, target.id)
            return
        raise Unsupported(ast.unparse(target))

    def conditional(self, s):
        t = s.test
        # `if x is None: x = …`
        if isinstance(t, ast.Compare) and isinstance(t.ops[0], ast.Is) and isinstance(t.left, ast.Name) and \
                self.ts(self.env[t.left.id]) == ['indarg'] and not s.orelse and len(s.body) == 1 and \
                isinstance(s.body[0], ast.Assign) and ast.unparse(s.body[0].targets[0]) == t.left.id:
            n = t.left.id
            v = self.expr(s.body[0].value)
            code = 'IndArg.dict []' if self.ts(v) == ['emptydict'] else self.coerce(v, 'indarg')
            self.emit(f'let {n} : IndArg := if {self.test(t)} then {code} else {n}')
            return
        if isinstance(t, ast.Compare) and isinstance(t.ops[0], ast.Is) and isinstance(t.left, ast.Name) and \
                self.ts(self.env[t.left.id]) == ['optgen'] and ast.unparse(t.comparators[0]) == 'None':
            n = t.left.id
            self.emit(f'let _ : Unit ← (match {n} with')
            self.branch(s.body, head='| none => do')
            self.branch(s.orelse, {n: V('gen', n)}, head=f'| some {n} => do')
            self.lines[-1] += ')'
            return
        if isinstance(t, ast.Call) and ast.unparse(t.func) == 'isinstance' and isinstance(t.args[0], ast.Name) and \
                self.ts(self.env[t.args[0].id]) == ['consarg']:
            n = t.args[0].id
            f, ty = {'ConstraintBase': ('asBase', 'objC'), 'Iterable': ('asIterable', 'objs')}[
                ast.unparse(t.args[1])]
            self.emit(f'let _ : Unit ← (match {self.env[n].code}.{f} with')
            self.branch(s.body, {n: V(ty, 'value')}, head='| some value => do')
            self.branch(s.orelse, head='| none => do')
            self.lines[-1] += ')'
            return
        c = self.test(t)
        self.emit('let _ : Unit ← (')
        self.branch(s.body, head=f'if {c} then do')
        self.branch(s.orelse, head='else do')
        self.lines[-1] += ')'

    def loop(self, s):
        if ast.unparse(s.iter) == 'self._constraints' and isinstance(s.target, ast.Name):
            l = self.attribute('_constraints')
            n = s.target.id
            body = strip(s.body)
            if len(body) == 1 and isinstance(body[0], ast.Expr) and isinstance(body[0].value, ast.Call) and \
                    ast.unparse(body[0].value.func) == f'{n}.initialize':
                (a,) = body[0].value.args
                if body[0].value.keywords:
                    raise Unsupported('initialize')
                self.external.add('other')
                self.counter[0] += 1
                r = f't{self.counter[0]}'
                self.emit(f'let {r} : List (PackedCons M) ← Act.mapEach {l.code} fun {n} => do')
                x = self.sub({n: V('instC', n)})
                x.emit(f"pure (PackedCons.initialize other {x.coerce(x.expr(a), 'nat')} {n})")
                self.emit(f'Act.write fun self => {{ self with _constraints := some {r} }}')
                return
            if any(isinstance(y, ast.Attribute) and y.attr in ('append', 'initialize') for x in body
                   for y in ast.walk(x)):
                raise Unsupported('loop changes the list')
            self.emit(f'Act.forEach {l.code} fun {n} => do')
            self.branch(s.body, {n: V('instC', n)})
            return
        if isinstance(s.iter, ast.Name) and self.ts(self.env[s.iter.id]) == ['objs'] and isinstance(s.target, ast.Name):
            self.emit(f'Act.forEach {self.env[s.iter.id].code} fun {s.target.id} => do')
            self.branch(s.body, {s.target.id: V('objC', s.target.id)})
            return
        if isinstance(s.iter, ast.Call) and ast.unparse(s.iter.func) == 'zip' and isinstance(s.target, ast.Tuple):
            a, b = [self.expr(x) for x in s.iter.args]
            if self.ts(a, b) != ['objs', 'indarg'] or s.iter.keywords:
                raise Unsupported('zip')
            it = self.let('items', f'Act.lift {b.code}.items', True)
            x, y = [z.id for z in s.target.elts]
            self.emit(f'Act.forEach ({a.code}.zip {it.code}) fun pair => do')
            self.branch(s.body, {x: V('objC', 'pair.1'), y: V('item', 'pair.2')})
            return
        raise Unsupported(ast.unparse(s))


def header(first, binders, last, doc=None):
    lines, cur = [], first
    for b in binders:
        if len(cur) + len(b) > 105:
            lines.append(cur)
            cur = '   '
        cur += ' ' + b
    return lines + [cur + last]


def default(f, node, t):
    return f.coerce(Const(ast.literal_eval(node)), t)


def compiled(world, out):
    """`filter_kwargs`, and `compiled` of the four base classes."""
    file = 'flory/common/utilities.py'
    (node,) = [x for x in world.trees[file].body if isinstance(x, ast.FunctionDef) and x.name == 'filter_kwargs']
    if [a.arg for a in node.args.args] != ['kwargs_full', 'func']:
        raise Unsupported('filter_kwargs')
    a, r = strip(node.body)
    if ast.unparse(a) != 'params = inspect.signature(func).parameters.keys()' or not isinstance(r, ast.Return):
        raise Unsupported('filter_kwargs')
    d = r.value
    if not isinstance(d, ast.DictComp) or len(d.generators) != 1:
        raise Unsupported('filter_kwargs')
    g = d.generators[0]
    n = g.target.id
    if ast.unparse(g.iter) != 'params' or len(g.ifs) != 1 or not isinstance(g.ifs[0], ast.Compare) or \
            ast.unparse(g.ifs[0].left) != n or ast.unparse(g.ifs[0].comparators[0]) != 'kwargs_full' or \
            not isinstance(d.value, ast.Subscript) or ast.unparse(d.value.value) != 'kwargs_full' or \
            ast.unparse(d.key) != n or ast.unparse(d.value.slice) != n:
        raise Unsupported('filter_kwargs')
    cond = {ast.In: '', ast.NotIn: 'not '}[type(g.ifs[0].ops[0])]
    test = f'(kwargs_full.get? {n}).isSome'
    out += [f'/-- `filter_kwargs` ({cite(file, node)}); `func` are the names of the parameters of the function. -/',
            'def filter_kwargs (kwargs_full : Dict ℝ) (func : List String) : Py (Dict ℝ) := do',
            '  let params : List String := func',
            f"  forListM (params.filter fun {n} => {'!' if cond else ''}{test}) [] fun {n} dict => do",
            f'    let value : ℝ ← Dict.item kwargs_full {n}',
            f'    pure (dict.insert {n} value)', '']
    for cls in ('InteractionBase', 'EntropyBase', 'EnsembleBase', 'ConstraintBase'):
        node = world.classes[cls]['methods']['compiled']
        if node.args.args[1:] or node.args.kwonlyargs or node.args.kwarg.arg != 'kwargs_full' or node.decorator_list:
            raise Unsupported('compiled')
        a, r = strip(node.body)
        if ast.unparse(a) != 'kwargs = filter_kwargs(kwargs_full, self._compiled_impl)' or \
                ast.unparse(r) != 'return self._compiled_impl(**kwargs)':
            raise Unsupported('compiled')
        for c in world.classes:
            if c != cls and cls in world.chain(c) and 'compiled' in world.classes[c]['methods']:
                raise Unsupported('compiled is overridden')
        out += [f"/-- `{cls}.compiled` ({cite(world.classes[cls]['file'], node)}); `self` is the object's",
                '`_compiled_impl` with the names of its parameters. -/',
                f'def {cls}.compiled {{α : Type}} (self : InstObj α) (kwargs_full : Dict ℝ) : Py α := do',
                '  let kwargs : Dict ℝ ← filter_kwargs kwargs_full self.params',
                '  callKwargs self.params kwargs self.impl', '']


def run(repo):
    w = World(repo)
    for f in FILES + ['flory/constraint/no.py', FILE]:
        w.load(f)
    out = ['import Verif.Model.FinderObject', '', '/-!',
           f'# Transcription of the constructor and the methods that change a finder (`{FILE}`)', '',
           'Written by `tools/transcribe_finder.py`; do not edit.', '-/', '',
           'set_option linter.unusedVariables false', '', 'namespace Flory.Gen', '', 'variable {G : Type} {M : ℕ}', '']
    compiled(w, out)
    for k, (classes, where) in KINDS.items():
        have = [[a for a in ('num_comp', 'num_feat') if w.find_property(c, a) is not None] for c in classes]
        if any(h != have[0] for h in have):
            raise Unsupported('attributes of compiled classes')
        cites = ', '.join(f"`{w.classes[c]['file']}`" for c in classes)
        vals = ', '.join(f"{a} := {'some ' + where[a] if a in have[0] else 'none'}" for a in ('num_comp', 'num_feat'))
        ms = ' {M : ℕ}' if k == 'instC' else ''
        lines = [cite(w.classes[c]['file'], w.find_property(c, a)) for c in classes for a in have[0]]
        out += ['/-- The attributes of compiled instances that `check_instance` looks for',
                '(' + (',\n'.join(lines) or cites) + '). -/',
                f'def {NAMES[k]}{ms} (x : {TYPES[k]}) : InstAttrs := {{ {vals} }}', '']
    methods = {}
    for x in [c for c in w.trees[FILE].body if isinstance(c, ast.ClassDef) and c.name == CLS][0].body:
        if isinstance(x, ast.FunctionDef):
            if x.name in methods:
                raise Unsupported('several definitions')
            methods[x.name] = x
    init = methods['__init__']
    out += [f'/-- The attributes of a finder ({cite(FILE, init)}); `none` if not assigned. -/',
            'structure FinderObj (G : Type) (M : ℕ) where']
    out += [f'  {a} : Option {atom(TYPES[t])} := none' for a, t in ATTRS.items()] + ['']
    # keyword arguments with their defaults
    kw = {a.arg: d for a, d in zip(init.args.kwonlyargs, init.args.kw_defaults)}
    if list(kw) != list(KEYWORD) or init.args.kwarg.arg != 'kwargs' or \
            [a.arg for a in init.args.args[1:]] != list(POSITIONAL) or len(init.args.defaults) != 1:
        raise Unsupported('arguments of the constructor')
    f = Fun(w, {}, {})
    out += [f'/-- Keyword arguments of the constructor and their defaults ({cite(FILE, init)}). -/',
            'structure InitArgs (G : Type) where']
    out += [f'  {a} : {TYPES[t]} := {default(f, kw[a], t)}' for a, t in KEYWORD.items()]
    out += ['', f'/-- Default of `constraints` ({cite(FILE, init)}). -/',
            f"def {CLS}.init_constraints : ConsArg := {default(f, init.args.defaults[0], 'consarg')}", '']
    done = {}
    for name, params in METHODS.items():
        node = methods[name]
        args = node.args.args[1:] + node.args.kwonlyargs
        if [a.arg for a in args] != list(params) or node.decorator_list:
            raise Unsupported('arguments')
        defaults = dict(zip([a.arg for a in reversed(node.args.args)], reversed(node.args.defaults)))
        defaults.update({a.arg: d for a, d in zip(node.args.kwonlyargs, node.args.kw_defaults) if d})
        params = dict(params)
        if node.args.kwarg:
            if node.args.kwarg.arg != 'kwargs':
                raise Unsupported('arguments')
            params['kwargs'] = 'dict'
        elif defaults:
            raise Unsupported('defaults')
        f = Fun(w, {p: V(t, p) for p, t in params.items()}, done)
        returned = f.block(node.body)
        if name.startswith('reinitialize') or not returned:
            f.emit('pure ()')
        ret = f.ret.t if f.ret else None
        binders = [EXTERNAL[x] for x in sorted(f.external)] + [f'({p} : {TYPES[t]})' for p, t in params.items()]
        out += [f'/-- `{CLS}.{name}` ({cite(FILE, node)}). -/',
                *header(f'noncomputable def {CLS}.{name}', binders, ' :'),
                f"    Act (FinderObj G M) {atom(TYPES[ret]) if ret else 'Unit'} := do"] + f.lines + ['']
        if defaults:
            vals = [(p, default(f, d, METHODS[name][p])) for p, d in sorted(defaults.items())]
            t = ' × '.join(TYPES[METHODS[name][p]] for p, _ in vals)
            out += [f"/-- Defaults of {', '.join('`' + p + '`' for p, _ in vals)} ({cite(FILE, node)}). -/",
                        f"def {CLS}.{name}_defaults : {t} := ({', '.join(v for _, v in vals)})", '']
        done[name] = {'params': list(params.values()), 'ret': ret, 'external': f.external}
    env = {p: V(t, p) for p, t in POSITIONAL.items()}
    env.update({p: V(t, p) for p, t in KEYWORD.items()})
    env['kwargs'] = V('dict', 'kwargs')
    f = Fun(w, env, done, init=set())
    for p, t in KEYWORD.items():
        f.emit(f'let {p} : {TYPES[t]} := args.{p}')
    if f.block(init.body):
        raise Unsupported('return')
    f.emit('pure ()')
    if f.init != set(ATTRS) | {'_logger'}:
        raise Unsupported('attributes')
    binders = [EXTERNAL[x] for x in sorted(f.external)] + [f'({p} : {TYPES[t]})' for p, t in POSITIONAL.items()]
    out += [f'/-- `{CLS}.__init__` ({cite(FILE, init)}). -/',
            *header(f'noncomputable def {CLS}.init', binders + ['(args : InitArgs G)', '(kwargs : Dict ℝ)'], ' :'),
            '    Act (FinderObj G M) Unit := do'] + f.lines + ['']
    out.append('end Flory.Gen')
    return '\n'.join(out) + '\n'


def main():
    repo, out = '/repo', os.path.join(os.path.dirname(__file__), '..', 'lean', 'Verif', 'Gen')
    a = sys.argv[1:]
    if '--repo' in a:
        repo = a[a.index('--repo') + 1]
    if '--out' in a:
        out = a[a.index('--out') + 1]
    os.makedirs(out, exist_ok=True)
    loggers(repo)
    text = run(repo)
    p = os.path.join(out, 'FinderObject.lean')
    if '--check' in a:
        bad = not os.path.exists(p) or open(p).read() != text
        print('1 modules,', int(bad), 'differ')
        sys.exit(bad)
    open(p, 'w').write(text)


if __name__ == '__main__':
    main()
