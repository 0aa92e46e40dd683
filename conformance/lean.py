"""What the generators share."""
import ast, io, json, tokenize

def table(path, name):
    tree = ast.parse(open(path).read())
    for node in tree.body:
        if isinstance(node, ast.Assign) and node.targets[0].id == name:
            return ast.literal_eval(node.value), node.lineno, node.end_lineno

def q(s):
    return json.dumps(s, ensure_ascii=False)

KIND = {tokenize.NAME: "name", tokenize.NUMBER: "number", tokenize.STRING: "string", tokenize.OP: "op",
        tokenize.NEWLINE: "newline", tokenize.NL: "nl", tokenize.ENDMARKER: "endmarker", tokenize.INDENT: "indent",
        tokenize.DEDENT: "dedent", tokenize.COMMENT: "comment", tokenize.ERRORTOKEN: "errortoken"}

def raw(code):
    """The text that is tokenized, the raw tokens, and how they end."""
    code = code.replace("\n", " ").strip()
    out, fin = [], ".exhausted"
    try:
        for t in tokenize.generate_tokens(io.StringIO(code).readline):
            out.append("⟨.%s, %s, ⟨%d, %d⟩⟩" % (KIND[t.type], q(t.string), t.start[1], t.end[1]))
    except tokenize.TokenError as e:
        assert "EOF in multi-line" in e.args[0]
        fin = ".multiLine"
    return code, "[" + ", ".join(out) + "]", fin

