import Verif.Model.Drawer
import Verif.Model.Template

/-!
# The drawn page

`templates/gui/ast.html`, rendered by `Tera::render` as in `ast_drawer.rs:49-56` (automatic escaping is switched off
at line 22): `{{ name }}` and `{{ ast }}` are replaced by the texts.  The static text is copied here piece by piece.
Not modelled: writing the file.
-/

namespace Syntaxis.Page
open Template (lines)

/-- `ast.html:1-8` -/
def head : Str :=
  lines [
    chars! "<!DOCTYPE html>",
    chars! "<html lang=\"en\">",
    chars! "",
    chars! "<head>",
    chars! "  <meta charset=\"UTF-8\">",
    chars! "  <meta http-equiv=\"X-UA-Compatible\" content=\"IE=edge\">",
    chars! "  <meta name=\"viewport\" content=\"width=device-width, initial-scale=1.0\">"] ++ chars! "  <title>"

/-- `ast.html:8-62` -/
def style : Str :=
  lines [
    chars! "</title>",
    chars! "  <style>",
    chars! "    * {",
    chars! "      margin: 0 0;",
    chars! "    }",
    chars! "",
    chars! "    *::-webkit-scrollbar {",
    chars! "      width: 5px;",
    chars! "      height: 5px;",
    chars! "    }",
    chars! "",
    chars! "    /* 两个滚动条交接处 -- x轴和y轴 */",
    chars! "    *::-webkit-scrollbar-corner {",
    chars! "      background-color: transparent;",
    chars! "    }",
    chars! "",
    chars! "    /* 滚动条滑块 */",
    chars! "    *::-webkit-scrollbar-thumb {",
    chars! "      border-radius: 10px;",
    chars! "      -webkit-box-shadow: inset 0 0 5px rgba(0, 0, 0, 0.2);",
    chars! "      background: #49b1f5;",
    chars! "    }",
    chars! "",
    chars! "    /* 滚动条轨道 */",
    chars! "    *::-webkit-scrollbar-track {",
    chars! "      -webkit-box-shadow: inset 0 0 5px rgba(0, 0, 0, 0.2);",
    chars! "      border-radius: 10px;",
    chars! "      background: #ededed;",
    chars! "    }",
    chars! "",
    chars! "    *::-webkit-slider-container {",
    chars! "      /*可以修改容器的若干样式*/",
    chars! "      width: 5px;",
    chars! "      height: 5px;",
    chars! "    }",
    chars! "",
    chars! "    input {",
    chars! "      width: 300px;",
    chars! "    }",
    chars! "",
    chars! "",
    chars! "    button {",
    chars! "      background-color: #49b1f5;",
    chars! "      border: none;",
    chars! "      color: white;",
    chars! "      text-align: center;",
    chars! "      text-decoration: none;",
    chars! "      display: inline-block;",
    chars! "      border-radius: 4px;",
    chars! "    }",
    chars! "    ",
    chars! "    button:hover {",
    chars! "      box-shadow: 0 6px 8px 0 rgba(0,0,0,0.24), 0 17px 50px 0 rgba(0,0,0,0.19);",
    chars! "    }",
    chars! "  </style>"]

/-- `ast.html:63-101` -/
def body : Str :=
  lines [
    chars! "</head>",
    chars! "",
    chars! "<body>",
    chars! "  <div style=\"overflow: hidden;\">",
    chars! "    <div id=\"content\"",
    chars! "      style=\"overflow-x: hidden; position: fixed; height: 100vh; overflow-y: auto;  " ++
      chars! "background-color: rgb(244, 237, 237); width: 255px; z-index: 100;\">",
    chars! "    </div>",
    chars! "    <div id=\"super\" style=\"position: relative; overflow-y: visible; overflow-x: visible; " ++
      chars! "margin-left: 255px; min-height: 100vh;\">",
    chars! "",
    chars! "      <div id=\"container\"",
    chars! "        style=\"overflow: visible; height: 100%; background-color: transparent; display: " ++
      chars! "flex;justify-content: center; z-index: 1;\">",
    chars! "        <div id=\"tree\" style=\"overflow: visible;\"></div>",
    chars! "      </div>",
    chars! "",
    chars! "      <!-- <div style=\"position: absolute; left: 0; top: 0;\">",
    chars! "        <button id=\"reset\">复位</button>",
    chars! "        <button id=\"switch\">转换为 cluster</button>",
    chars! "        <input id=\"slider\" type=\"range\" min=\"0\" max=\"550\" step=\"1\"  /> ",
    chars! "      </div> -->",
    chars! "",
    chars! "",
    chars! "    </div>",
    chars! "    <div style=\"position: absolute; left: 260px; top: 5px;\">",
    chars! "      <button id=\"reset\">复位(reset)</button>",
    chars! "      <button id=\"switch\">转换为cluster (use cluster)</button>",
    chars! "      <span>",
    chars! "        dx",
    chars! "        <input id=\"slider\" type=\"range\" min=\"32\" max=\"512\" step=\"1\" value=\"128\" /> ",
    chars! "      </span>",
    chars! "      <span>",
    chars! "        dy",
    chars! "        <input id=\"slider2\" type=\"range\" min=\"32\" max=\"512\" step=\"1\" value=\"96\" /> ",
    chars! "      </span>",
    chars! "    </div>",
    chars! "",
    chars! "  </div>",
    chars! "",
    chars! "  <script type=\"module\">"] ++ chars! "    "

/-- `ast.html:101-164` -/
def script1 : Str :=
  lines [
    chars! "",
    chars! "",
    chars! "    import * as d3 from \"https://cdn.jsdelivr.net/npm/d3@7/+esm\";",
    chars! "    const maxScale = 4, minScale = 0.05;",
    chars! "",
    chars! "    let config = {",
    chars! "      tree_or_cluster: d3.tree,",
    chars! "      current: ast, ",
    chars! "      scale: 1.0,",
    chars! "      isPointerdown: false,",
    chars! "      lastPointermove: { x: 0, y: 0 },",
    chars! "      x: 0, ",
    chars! "      y: 0,",
    chars! "      ast_width: 128,",
    chars! "      ast_height: 96,",
    chars! "    };",
    chars! "",
    chars! "    const content = indentTree(ast);",
    chars! "    document.getElementById('content').appendChild(content);",
    chars! "    const tree = collapsibleTree(ast, { tree: config.tree_or_cluster, dx: config.ast_width, " ++
      chars! "dy: config.ast_height });",
    chars! "    document.getElementById('tree').appendChild(tree);",
    chars! "",
    chars! "    // 增加一些拖拽和缩放功能。",
    chars! "    bindEvents(document.getElementById('super'), document.getElementById('container'));",
    chars! "    document.getElementById('reset').addEventListener('click', e => reset());",
    chars! "    document.getElementById('switch').addEventListener('click', e => {",
    chars! "      // console.log(e.target.innerHTML, typeof e.target.innerHTML);",
    chars! "      if (e.target.innerHTML.endsWith('(use cluster)')) {",
    chars! "        config.tree_or_cluster = d3.cluster;",
    chars! "        e.target.innerHTML = '转换为 tree (use tree)';",
    chars! "        render();",
    chars! "      }",
    chars! "      else {",
    chars! "        config.tree_or_cluster = d3.tree;",
    chars! "        e.target.innerHTML = '转换为 cluster (use cluster)';",
    chars! "        render();",
    chars! "      }",
    chars! "    });",
    chars! "",
    chars! "    document.getElementById('slider').onchange = (e) => {",
    chars! "      config.ast_width = e.target.value;",
    chars! "      render();",
    chars! "    };",
    chars! "    document.getElementById('slider2').onchange = (e) => {",
    chars! "      config.ast_height = e.target.value;",
    chars! "      render();",
    chars! "    };",
    chars! "",
    chars! "",
    chars! "",
    chars! "",
    chars! "",
    chars! "",
    chars! "",
    chars! "",
    chars! "",
    chars! "    function indentTree(data, { nodeSize = 25, minWidth = 255 } = {}) {",
    chars! "      let width = minWidth;",
    chars! "",
    chars! "      // 前序遍历? d.index用于计算布局，d.id用于更新",
    chars! "      const root = d3.hierarchy(data);",
    chars! "",
    chars! "      root.descendants().forEach((d, i) => {",
    chars! "        d.id = i;"]

/-- `ast.html:165-224` -/
def script2 : Str :=
  lines [
    chars! "        d._children = d.children;",
    chars! "        d.y = i * nodeSize;",
    chars! "",
    chars! "        // 如果需要在启动的时候就处于折叠状态，则将下面这行取消注释",
    chars! "        // d.children = null;",
    chars! "",
    chars! "        // 计算最小尺寸, 假设一个字符占12个像素",
    chars! "        const tmp = d.depth * nodeSize + d.data.name.length * 13 + 6;",
    chars! "        width = tmp > width ? tmp : width;",
    chars! "      });",
    chars! "",
    chars! "      const svg = d3.create(\"svg\")",
    chars! "        .attr(\"viewBox\", [-nodeSize / 2, -nodeSize * 3 / 2, width, 2 * nodeSize])",
    chars! "        .attr(\"font-family\", \"sans-serif\")",
    chars! "        .attr(\"font-size\", 18)",
    chars! "        .style(\"overflow\", \"visible\");",
    chars! "",
    chars! "      const gLink = svg.append(\"g\")",
    chars! "        .attr(\"fill\", \"none\")",
    chars! "        .attr(\"stroke\", \"#999\");",
    chars! "",
    chars! "      const gNode = svg.append(\"g\");",
    chars! "",
    chars! "      // bias_y 父节点的纵向偏移",
    chars! "      function update(source, bias_y) {",
    chars! "",
    chars! "        // 前序遍历, 更新位置",
    chars! "        root.eachBefore((d, i) => {",
    chars! "          d.y = i * nodeSize;",
    chars! "        });",
    chars! "",
    chars! "        const duration = 800;",
    chars! "        const nodes = root.descendants();",
    chars! "        const links = root.links();",
    chars! "",
    chars! "",
    chars! "        const transition = svg.transition()",
    chars! "          .duration(duration)",
    chars! "          .attr(\"viewBox\", [-nodeSize / 2, -nodeSize * 3 / 2, width, (nodes.length + 1) * " ++
      chars! "nodeSize])",
    chars! "          .tween(\"resize\", window.ResizeObserver ? null : () => () => svg.dispatch(\"toggle\"));",
    chars! "",
    chars! "",
    chars! "        const node = gNode.selectAll(\"g\").data(nodes, d => d.id);",
    chars! "",
    chars! "",
    chars! "        const nodeEnter = node.enter().append(\"g\")",
    chars! "          .attr(\"transform\", d => `translate(0, ${bias_y})`)",
    chars! "          .attr(\"fill-opacity\", 0)",
    chars! "          .attr(\"stroke-opacity\", 0);",
    chars! "",
    chars! "        nodeEnter.append(\"circle\")",
    chars! "          .attr(\"cx\", d => d.depth * nodeSize)",
    chars! "          .attr(\"r\", 5)",
    chars! "          .attr(\"fill\", d => d._children ? null : \"#999\")",
    chars! "          .on(\"click\", (event, d) => {",
    chars! "            d.children = d.children ? null : d._children;",
    chars! "            update(d, d.y);",
    chars! "          });",
    chars! "",
    chars! "        nodeEnter.append(\"text\")"]

/-- `ast.html:225-284` -/
def script3 : Str :=
  lines [
    chars! "          .attr(\"dy\", \"0.32em\")",
    chars! "          .attr(\"x\", d => d.depth * nodeSize + 8)",
    chars! "          .text(d => d.data.name)",
    chars! "          .attr(\"cursor\", \"pointer\")",
    chars! "          .on(\"click\", (event, d) => {",
    chars! "            config.current = d.data;",
    chars! "            render();",
    chars! "          })",
    chars! "          .clone(true).lower()",
    chars! "          .attr(\"stroke-linejoin\", \"round\")",
    chars! "          .attr(\"stroke-width\", 3)",
    chars! "          .attr(\"stroke\", \"white\");",
    chars! "",
    chars! "        node.merge(nodeEnter).transition(transition)",
    chars! "          .attr(\"transform\", d => `translate(0, ${d.y})`)",
    chars! "          .attr(\"fill-opacity\", 1)",
    chars! "          .attr(\"stroke-opacity\", 1);",
    chars! "",
    chars! "        node.exit().transition(transition).remove()",
    chars! "          .attr(\"transform\", d => `translate(0, ${bias_y})`)",
    chars! "          .attr(\"fill-opacity\", 0)",
    chars! "          .attr(\"stroke-opacity\", 0);",
    chars! "",
    chars! "        const link = gLink.selectAll(\"path\")",
    chars! "          .data(links, d => d.target.id);",
    chars! "",
    chars! "        const linkEnter = link.enter().append(\"path\")",
    chars! "          .attr(\"d\", d => `",
    chars! "          M${d.source.depth * nodeSize},${bias_y}",
    chars! "          V${bias_y}",
    chars! "          h${nodeSize}",
    chars! "        `);",
    chars! "",
    chars! "        link.merge(linkEnter).transition(transition)",
    chars! "          .attr(\"d\", d => `",
    chars! "          M${d.source.depth * nodeSize},${d.source.y}",
    chars! "          V${d.target.y}",
    chars! "          h${nodeSize}",
    chars! "        `);",
    chars! "",
    chars! "        link.exit().transition(transition).remove()",
    chars! "          .attr(\"d\", d => `",
    chars! "          M${d.source.depth * nodeSize},${bias_y}",
    chars! "          V${bias_y}",
    chars! "          h${nodeSize}`)",
    chars! "      }",
    chars! "",
    chars! "      update(root, 0);",
    chars! "      return svg.node();",
    chars! "    }",
    chars! "",
    chars! "    function collapsibleTree(data, {",
    chars! "      id = Array.isArray(data) ? d => d.id : null,",
    chars! "      parentId = Array.isArray(data) ? d => d.parentId : null,",
    chars! "      tree = d3.tree,",
    chars! "      r = 5,",
    chars! "      padding = 1,",
    chars! "      stroke = \"#555\",",
    chars! "      strokeWidth = 1.5,",
    chars! "      strokeOpacity = 0.4,"]

/-- `ast.html:285-342` -/
def script4 : Str :=
  lines [
    chars! "      curve = d3.curveBumpX,",
    chars! "      dx = 128,",
    chars! "      dy = 128,",
    chars! "      margin = { top: 40, right: 120, bottom: 10, left: 40 }",
    chars! "    } = {}) {",
    chars! "",
    chars! "      const root = d3.hierarchy(data);",
    chars! "      const diagonal = d3.linkVertical(curve).x(d => d.x).y(d => d.y);",
    chars! "      const tree_func = tree().nodeSize([dx, dy]);",
    chars! "",
    chars! "",
    chars! "      root.descendants().forEach((d, i) => {",
    chars! "        d.id = i;",
    chars! "        d._children = d.children;",
    chars! "        // d.children = null;",
    chars! "      });",
    chars! "",
    chars! "      const svg = d3.create(\"svg\")",
    chars! "        // .attr(\"viewBox\", [-margin.left, -margin.top, width, dx])",
    chars! "        .attr(\"font-size\", 14)",
    chars! "        .style(\"overflow\", \"visible\")",
    chars! "        .style(\"user-select\", \"none\");",
    chars! "",
    chars! "      const gLink = svg.append(\"g\")",
    chars! "        .attr(\"fill\", \"none\")",
    chars! "        .attr(\"stroke\", \"#555\")",
    chars! "        .attr(\"stroke-opacity\", 0.4)",
    chars! "        .attr(\"stroke-width\", 1.5);",
    chars! "",
    chars! "      const gNode = svg.append(\"g\")",
    chars! "        // .attr(\"cursor\", \"pointer\")",
    chars! "        .attr(\"pointer-events\", \"all\");",
    chars! "",
    chars! "      function update(source, from_x, from_y) {",
    chars! "        const duration = d3.event && d3.event.altKey ? 2500 : 300;",
    chars! "",
    chars! "        const nodes = root.descendants().reverse();",
    chars! "        const links = root.links();",
    chars! "",
    chars! "        // Compute the new tree layout.",
    chars! "        tree_func(root);",
    chars! "",
    chars! "        let left = root;",
    chars! "        let right = root;",
    chars! "        let top = root;",
    chars! "        let bottom = root;",
    chars! "        root.eachBefore(node => {",
    chars! "          if (node.x < left.x) left = node;",
    chars! "          if (node.x > right.x) right = node;",
    chars! "          if (node.y < top.y) top = node;",
    chars! "          if (node.y > bottom.y) bottom = node;",
    chars! "        });",
    chars! "",
    chars! "        // const height = right.x - left.x + margin.top + margin.bottom;",
    chars! "        const width = right.x - left.x + margin.left + margin.right;",
    chars! "        const height = bottom.y - top.y + margin.top + margin.bottom;",
    chars! "",
    chars! "        const transition = svg.transition()"]

/-- `ast.html:343-386` -/
def script5 : Str :=
  lines [
    chars! "          .duration(duration)",
    chars! "          .attr('height', height)",
    chars! "          .attr('width', width)",
    chars! "          .attr(\"viewBox\", [-margin.left + left.x, top.y - margin.top, width, height])",
    chars! "          .tween(\"resize\", window.ResizeObserver ? null : () => () => svg.dispatch(\"toggle\"));",
    chars! "",
    chars! "        // Update the nodes…",
    chars! "        const node = gNode.selectAll(\"g\")",
    chars! "          .data(nodes, d => d.id);",
    chars! "",
    chars! "",
    chars! "        // Enter any new nodes at the parent's previous position.",
    chars! "        const nodeEnter = node.enter().append(\"g\")",
    chars! "          .attr(\"transform\", d => `translate(${from_x},${from_y})`)",
    chars! "          .attr(\"fill-opacity\", 0)",
    chars! "          .attr(\"stroke-opacity\", 0);",
    chars! "",
    chars! "        nodeEnter.append(\"title\")",
    chars! "        .text(d => d._children ? d.data.id: d.data.name);",
    chars! "",
    chars! "        nodeEnter.append(\"text\")",
    chars! "          .attr(\"y\", 0)",
    chars! "          .attr('font-weight', 'bold')",
    chars! "          // .attr('font-style', d => d._children ? 'italic': 'normal')",
    chars! "          .attr(\"cursor\", d => d._children ? \"pointer\" : \"default\")",
    chars! "          .attr('fill', d => d._children ? \"#333\" : \"#999\")",
    chars! "          .attr(\"text-anchor\", \"middle\")",
    chars! "          .text(d => d._children ? d.data.name: d.data.text)",
    chars! "          .on(\"pointerdown\", (event, d) => {",
    chars! "            d.children = d.children ? null : d._children;",
    chars! "            update(d, d.x, d.y);",
    chars! "          })",
    chars! "          .clone(true).lower()",
    chars! "          .attr(\"stroke-linejoin\", \"round\")",
    chars! "          .attr(\"stroke-width\", 3)",
    chars! "          .attr(\"stroke\", \"white\");",
    chars! "",
    chars! "        // Transition nodes to their new position.",
    chars! "        const nodeUpdate = node.merge(nodeEnter).transition(transition)",
    chars! "          .attr(\"transform\", d => `translate(${d.x},${d.y})`)",
    chars! "          .attr(\"fill-opacity\", 1)",
    chars! "          .attr(\"stroke-opacity\", 1);",
    chars! "",
    chars! "        // Transition exiting nodes to the parent's new position."]

/-- `ast.html:387-441` -/
def script6 : Str :=
  lines [
    chars! "        const nodeExit = node.exit().transition(transition).remove()",
    chars! "          .attr(\"transform\", d => `translate(${source.x},${source.y})`)",
    chars! "          .attr(\"fill-opacity\", 0)",
    chars! "          .attr(\"stroke-opacity\", 0);",
    chars! "",
    chars! "        // Update the links…",
    chars! "        const link = gLink.selectAll(\"path\")",
    chars! "          .data(links, d => d.target.id);",
    chars! "",
    chars! "        // Enter any new links at the parent's previous position.",
    chars! "        const linkEnter = link.enter().append(\"path\")",
    chars! "          .attr(\"d\", d => {",
    chars! "            const o = { x: from_x, y: from_y };",
    chars! "            return diagonal({ source: o, target: o });",
    chars! "          });",
    chars! "",
    chars! "        // Transition links to their new position.",
    chars! "        link.merge(linkEnter).transition(transition)",
    chars! "          .attr(\"d\", diagonal);",
    chars! "",
    chars! "        // Transition exiting nodes to the parent's new position.",
    chars! "        link.exit().transition(transition).remove()",
    chars! "          .attr(\"d\", d => {",
    chars! "            const o = { x: source.x, y: source.y };",
    chars! "            return diagonal({ source: o, target: o });",
    chars! "          });",
    chars! "      }",
    chars! "",
    chars! "      update(root, 0, 0);",
    chars! "",
    chars! "      return svg.node();",
    chars! "    }",
    chars! "",
    chars! "    function bindEvents(parent, element) {",
    chars! "      document.body.onresize = () => {",
    chars! "        // console.log('body resized!');",
    chars! "        setSize(element);",
    chars! "      }",
    chars! "      ",
    chars! "      // 绑定滚轮缩放",
    chars! "      parent.addEventListener('wheel', (e) => {",
    chars! "        let ratio = 1.1;",
    chars! "        // 缩小",
    chars! "        if (e.deltaY > 0) {",
    chars! "          ratio = 1 / 1.1;",
    chars! "        }",
    chars! "        config.scale *= ratio;",
    chars! "        if (config.scale > maxScale) config.scale = maxScale;",
    chars! "        else if (config.scale < minScale) config.scale = minScale;",
    chars! "",
    chars! "        // scale 后面不要有空格 translateX 里面一定要有单位",
    chars! "        const transform = `translateX(${config.x}px) translateY(${config.y}px) " ++
      chars! "scale(${config.scale})`;",
    chars! "        element.style.transform = transform;",
    chars! "",
    chars! "        // 预防执行默认的行为"]

/-- `ast.html:442-508` -/
def script7 : Str :=
  lines [
    chars! "        e.preventDefault();",
    chars! "      });",
    chars! "",
    chars! "      // 绑定拖拽功能",
    chars! "      parent.addEventListener('pointerdown', (e) => {",
    chars! "        if (e.button == 0) {",
    chars! "          config.isPointerdown = true;",
    chars! "          element.setPointerCapture(e.pointerId);",
    chars! "          config.lastPointermove = { x: e.clientX, y: e.clientY };",
    chars! "          // e.preventDefault();",
    chars! "        }",
    chars! "      });",
    chars! "",
    chars! "      parent.addEventListener('pointerup', (e) => {",
    chars! "        if (e.button == 0) {",
    chars! "          config.isPointerdown = false;",
    chars! "          e.preventDefault();",
    chars! "        }",
    chars! "",
    chars! "      });",
    chars! "",
    chars! "      parent.addEventListener('pointermove', (e) => {",
    chars! "        if (config.isPointerdown) {",
    chars! "          const current = { x: e.clientX, y: e.clientY };",
    chars! "          const dx = current.x - config.lastPointermove.x;",
    chars! "          const dy = current.y - config.lastPointermove.y;",
    chars! "          config.lastPointermove = { x: current.x, y: current.y };",
    chars! "          config.x += dx; config.y += dy;",
    chars! "",
    chars! "          const transform = `translateX(${config.x}px) translateY(${config.y}px) " ++
      chars! "scale(${config.scale})`;",
    chars! "          element.style.transform = transform;",
    chars! "",
    chars! "          e.preventDefault();",
    chars! "        }",
    chars! "",
    chars! "      });",
    chars! "",
    chars! "      setSize(element);",
    chars! "    }",
    chars! "",
    chars! "    function setSize(element) {",
    chars! "      if (element.scrollWidth > window.innerWidth || element.scrollHeight > " ++
      chars! "window.innerHeight) {",
    chars! "        element.style.width = window.innerWidth + 'px';",
    chars! "        element.style.height = window.innerHeight + 'px';",
    chars! "      }",
    chars! "    }",
    chars! "",
    chars! "    function reset() {",
    chars! "      config.scale = 1.0;",
    chars! "      config.isPointerdown = false, config.lastPointermove = { x: 0, y: 0 };",
    chars! "      config.x = 0, config.y = 0;",
    chars! "      // element.style.transform = 'translateX(0px) translateY(0px) scale(1)';",
    chars! "      const element = document.getElementById('container');",
    chars! "      element.style.transform = 'translateX(0px) translateY(0px) scale(1)';",
    chars! "      // console.log(element.style.transform);",
    chars! "    }",
    chars! "",
    chars! "    function render() {",
    chars! "      const tree = collapsibleTree(config.current, { tree: config.tree_or_cluster, dx: " ++
      chars! "config.ast_width, dy: config.ast_height });",
    chars! "      const dom = document.getElementById('tree');",
    chars! "      dom.innerHTML = '';",
    chars! "      dom.appendChild(tree);",
    chars! "      reset();",
    chars! "    }",
    chars! "",
    chars! ""] ++ chars! "  "

/-- `ast.html:508-512` -/
def end_ : Str :=
  lines [
    chars! "</script>",
    chars! "",
    chars! "</body>",
    chars! ""] ++ chars! "</html>"

/-- `ast.html:101-508`: the script behind the tree -/
def scriptRest : Str := script1 ++ script2 ++ script3 ++ script4 ++ script5 ++ script6 ++ script7

/-- `ast_drawer.rs:49-56`, `draw`: the text written to the file -/
def render (name : Str) (r : RuleContext) : Str :=
  head ++ name ++ style ++ body ++ Drawer.script r ++ scriptRest ++ end_

end Syntaxis.Page
