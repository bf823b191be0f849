"""Messages of the logger, which the translators leave out.

A message has no effect only if evaluating its arguments cannot raise.  `message(call)` accepts the arguments
below, which the program has evaluated before, and refuses all others.
"""
import ast
import os

HARMLESS = {
    'interaction.num_comp', 'entropy.num_comp', 'phis.shape', 'self.num_comp', 'phis', 'steps', 'n_valid',
    'self._num_part', 'compiled_instance.num_comp', 'self._num_comp', 'compiled_instance.num_feat',
    'self._num_feat', 'field.shape', '(self._num_feat, self._num_part)',
}

# the constructor of this class writes a message before it creates the logger; the model raises `AttributeError`
BEFORE = 'FloryHugginsBlockInteraction'


def is_message(call):
    return isinstance(call, ast.Call) and ast.unparse(call.func).startswith('self._logger.')


def message(call):
    """Whether the call is a message without effect."""
    if ast.unparse(call.func) not in ('self._logger.error', 'self._logger.warning', 'self._logger.info'):
        return False
    if call.keywords or not call.args:
        return False
    text, *rest = call.args
    if not isinstance(text, ast.Constant) or not isinstance(text.value, str):
        return False
    return text.value.count('%') == len(rest) and all(ast.unparse(a) in HARMLESS for a in rest)


def creation(value):
    """Whether an expression creates the logger as all classes do."""
    return ast.unparse(value) == 'logging.getLogger(self.__class__.__name__)'


def loggers(repo):
    """Refuses programs in which an object writes messages but its constructor does not create the logger."""
    classes = {}
    for root, _, files in os.walk(os.path.join(repo, 'flory')):
        for name in files:
            if name.endswith('.py'):
                tree = ast.parse(open(os.path.join(root, name)).read())
                known = any(isinstance(n, ast.Import) and any(a.name == 'logging' and not a.asname for a in n.names)
                            for n in tree.body)
                for n in tree.body:
                    if isinstance(n, ast.ClassDef):
                        classes[n.name] = (n, known)

    def used(node):
        return any(isinstance(n, ast.Attribute) and n.attr == '_logger' for n in ast.walk(node))

    def base(node):
        return ast.unparse(node.bases[0]) if len(node.bases) == 1 else None

    def created(cls):
        if cls not in classes:
            return False
        node, known = classes[cls]
        init = [m for m in node.body if isinstance(m, ast.FunctionDef) and m.name == '__init__']
        for s in init[0].body if init else []:
            if isinstance(s, ast.Assign) and ast.unparse(s.targets[0]) == 'self._logger':
                return known and creation(s.value)
            if used(s) and cls != BEFORE:
                return False
            if isinstance(s, ast.Expr) and ast.unparse(s.value).startswith('super().__init__(') and \
                    created(base(node)):
                return True
        return not init and created(base(node))

    for name, (node, _) in classes.items():
        if used(node) and not created(name):
            raise ValueError('no logger in ' + name)
